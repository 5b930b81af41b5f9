import Verif.AttGt.Model
import Mathlib.Tactic.Ring
import Mathlib.Tactic.FieldSimp
import Mathlib.Algebra.BigOperators.Group.List.Basic
import Mathlib.Algebra.BigOperators.Ring.List
import Mathlib.Algebra.Field.Rat

/-!
# C21, C22, C24, C71: the group-time estimation loop
-/

set_option linter.unusedSectionVars false

namespace Verif.AttGt

open Verif.Prep Verif.Panel

/-! ## C21 -/

/-- `b` is the base period of cohort `g`: the last period `b` with `b + anticipation < g`. -/
def IsBase (periods : List ℤ) (anticip g b : ℤ) : Prop :=
  b ∈ periods ∧ b + anticip < g ∧ ∀ q ∈ periods, q + anticip < g → q ≤ b

theorem lastBefore_some {periods : List ℤ} (hs : periods.Pairwise (· < ·)) {bound : ℤ} {p : ℕ}
    (h : lastBefore periods bound = some p) :
    ∃ b, periods[p]? = some b ∧ b < bound ∧ ∀ q ∈ periods, q < bound → q ≤ b := by
  unfold lastBefore at h
  obtain ⟨⟨b, p'⟩, hl, rfl⟩ := Option.map_eq_some_iff.1 h
  have hmem := List.mem_of_getLast? hl
  rw [List.mem_filter] at hmem
  have hget := List.mem_zipIdx_iff_getElem?.1 hmem.1
  refine ⟨b, hget, by simpa using hmem.2, ?_⟩
  intro q hq hqb
  have hz : (periods.zipIdx).Pairwise fun x y => x.1 ≤ y.1 := by
    have : (periods.zipIdx.map Prod.fst).Pairwise (· ≤ ·) := by
      rw [List.zipIdx_map_fst]; exact hs.imp fun h => le_of_lt h
    exact List.pairwise_map.1 this
  obtain ⟨j, hj, hjq⟩ := List.getElem_of_mem hq
  have hqm : (q, j) ∈ periods.zipIdx.filter fun p => p.1 < bound := by
    rw [List.mem_filter]
    refine ⟨List.mem_zipIdx_iff_getElem?.2 ?_, by simpa using hqb⟩
    simp [hj, hjq]
  have hzf := hz.sublist (List.filter_sublist (p := fun p : ℤ × ℕ => decide (p.1 < bound)))
  generalize periods.zipIdx.filter (fun p => decide (p.1 < bound)) = l at *
  obtain ⟨l', rfl⟩ : ∃ l', l = l' ++ [(b, p')] := by
    have hne : l ≠ [] := List.ne_nil_of_mem hqm
    refine ⟨l.dropLast, ?_⟩
    rw [List.getLast?_eq_getLast_of_ne_nil hne, Option.some.injEq] at hl
    rw [← hl]; exact (List.dropLast_append_getLast hne).symm
  rcases List.mem_append.1 hqm with h1 | h1
  · exact (List.pairwise_append.1 hzf).2.2 _ h1 (b, p') (by simp)
  · rw [List.mem_singleton] at h1
    exact (congrArg Prod.fst h1).le

theorem lastBefore_none {periods : List ℤ} {bound : ℤ} (h : lastBefore periods bound = none) :
    ∀ q ∈ periods, ¬ q < bound := by
  unfold lastBefore at h
  rw [Option.map_eq_none_iff, List.getLast?_eq_none_iff, List.filter_eq_nil_iff] at h
  intro q hq
  obtain ⟨j, hj, hjq⟩ := List.getElem_of_mem hq
  have := h (q, j) (List.mem_zipIdx_iff_getElem?.2 (by simp [hj, hjq]))
  simpa using this

theorem isBase_iff {periods : List ℤ} {a g b : ℤ} :
    IsBase periods a g b ↔ b ∈ periods ∧ b < g - a ∧ ∀ q ∈ periods, q < g - a → q ≤ b := by
  unfold IsBase
  have e : ∀ x : ℤ, x + a < g ↔ x < g - a := fun x => by omega
  simp only [e]

theorem IsBase.unique {periods : List ℤ} {a g b b' : ℤ} (h : IsBase periods a g b) (h' : IsBase periods a g b') :
    b = b' :=
  le_antisymm (h'.2.2 b h.1 h.2.1) (h.2.2 b' h'.1 h'.2.1)

/-- **C21, varying base, post-treatment cell** (`g ≤ t`): the base is the last period `b` with `b + anticipation < g`;
the cell is dropped exactly when there is none. -/
theorem C21_varying_post {periods : List ℤ} (hs : periods.Pairwise (· < ·)) (a g t : ℤ) (i : ℕ)
    (ht : periods[i + 1]? = some t) (hpost : g ≤ t) :
    (∃ p b, planCell .varying periods a g i = some (.run p) ∧ periods[p]? = some b ∧ IsBase periods a g b) ∨
    (planCell .varying periods a g i = some .skip ∧ ∀ q ∈ periods, ¬ q + a < g) := by
  unfold planCell
  simp only [timeFactor, ht, hpost, if_true]
  cases h : lastBefore periods (g - a) with
  | none =>
    right
    refine ⟨rfl, fun q hq hlt => lastBefore_none h q hq (by omega)⟩
  | some p =>
    left
    obtain ⟨b, hb, h1, h2⟩ := lastBefore_some hs h
    exact ⟨p, b, rfl, hb, isBase_iff.2 ⟨List.mem_of_getElem? hb, h1, h2⟩⟩

/-- **C21, varying base, pre-treatment cell** (`t < g`): the base is the period immediately before `t`. -/
theorem C21_varying_pre {periods : List ℤ} (hs : periods.Pairwise (· < ·)) (a g t : ℤ) (i : ℕ)
    (ht : periods[i + 1]? = some t) (hpre : t < g) :
    ∃ b, planCell .varying periods a g i = some (.run i) ∧ periods[i]? = some b ∧ b < t ∧
      ∀ q ∈ periods, q < t → q ≤ b := by
  obtain ⟨hlt, htt⟩ := List.getElem?_eq_some_iff.1 ht
  refine ⟨periods[i], ?_, by simp, ?_, ?_⟩
  · unfold planCell
    have : ¬ g ≤ t := by omega
    simp only [timeFactor, ht, this, if_false]
  · rw [← htt]
    exact List.pairwise_iff_getElem.1 hs i (i + 1) (by omega) hlt (by omega)
  · intro q hq hqt
    obtain ⟨j, hj, rfl⟩ := List.getElem_of_mem hq
    by_contra hcon
    have hij : i < j := by
      by_contra hji
      rcases Nat.lt_or_eq_of_le (Nat.le_of_not_lt hji) with h1 | h1
      · exact hcon (le_of_lt (List.pairwise_iff_getElem.1 hs j i hj (by omega) h1))
      · subst h1; exact hcon le_rfl
    rcases Nat.lt_or_eq_of_le (Nat.succ_le_of_lt hij) with h1 | h1
    · have := List.pairwise_iff_getElem.1 hs (i + 1) j hlt hj h1
      omega
    · have h2 : i + 1 = j := h1
      subst h2; omega

/-- **C21, universal base.** The base is the last period `b` with `b + anticipation < g` for every period of the cell,
pre or post; the base period itself is not estimated; if there is no such period the call raises. -/
theorem C21_universal {periods : List ℤ} (hs : periods.Pairwise (· < ·)) (a g t : ℤ) (i : ℕ)
    (ht : periods[i]? = some t) :
    (∃ b, IsBase periods a g b ∧
      ((t = b ∧ planCell .universal periods a g i = some .skip) ∨
       (t ≠ b ∧ ∃ p, periods[p]? = some b ∧ planCell .universal periods a g i = some (.run p)))) ∨
    ((∀ q ∈ periods, ¬ q + a < g) ∧ planCell .universal periods a g i = some .typeError) := by
  unfold planCell
  simp only [timeFactor, Nat.add_zero, ht]
  cases h : lastBefore periods (g - a) with
  | none =>
    right
    exact ⟨fun q hq hlt => lastBefore_none h q hq (by omega), rfl⟩
  | some p =>
    left
    obtain ⟨b, hb, h1, h2⟩ := lastBefore_some hs h
    refine ⟨b, isBase_iff.2 ⟨List.mem_of_getElem? hb, h1, h2⟩, ?_⟩
    by_cases htb : t = b
    · left; exact ⟨htb, by simp [hb, htb]⟩
    · right
      refine ⟨htb, p, hb, ?_⟩
      simp only [hb, Option.some.injEq]
      rw [if_neg fun h => htb h.symm]

/-- **C21, universal base does not depend on the period of the cell.** -/
theorem C21_universal_constant {periods : List ℤ} (a g : ℤ) (i j p q : ℕ)
    (hi : planCell .universal periods a g i = some (.run p))
    (hj : planCell .universal periods a g j = some (.run q)) : p = q := by
  have : ∀ k r, planCell .universal periods a g k = some (.run r) → lastBefore periods (g - a) = some r := by
    intro k r h
    unfold planCell at h
    cases ht : periods[k + timeFactor .universal]? with
    | none => rw [ht] at h; simp at h
    | some t =>
      rw [ht] at h
      cases hl : lastBefore periods (g - a) with
      | none => rw [hl] at h; simp at h
      | some r' =>
        rw [hl] at h
        simp only [Option.some.injEq] at h
        split_ifs at h
        simpa using h
  exact Option.some.inj ((this i p hi).symm.trans (this j q hj))

/-- With a varying base, a pre-treatment cell inside the anticipation window is compared with a base that is itself
inside the window (`b + anticipation ≥ g`), so it is not an anticipation-free base. -/
theorem C21_anticipation_free_base_violated :
    ∃ (periods : List ℤ) (a g t b : ℤ) (i p : ℕ), periods.Pairwise (· < ·) ∧ periods[i + 1]? = some t ∧
      planCell .varying periods a g i = some (.run p) ∧ periods[p]? = some b ∧ ¬ b + a < g :=
  ⟨[1, 2, 3, 4, 5], 2, 5, 4, 3, 2, 2, by decide, by decide, by decide, by decide, by decide⟩

example : [1, 2, 3, 5].Pairwise (· < · : ℤ → ℤ → Prop) ∧
    planCell .varying [1, 2, 3, 5] 1 5 2 = some (.run 2) ∧ planCell .varying [1, 2, 3, 5] 1 5 0 = some (.run 0) ∧
    planCell .universal [1, 2, 3, 5] 1 5 0 = some (.run 2) ∧ planCell .universal [1, 2, 3, 5] 1 5 2 = some .skip := by
  decide

/-! ## C22 -/

theorem mem_cells {bp : BasePeriod} {G T : ℕ} {c : ℕ × ℕ} :
    c ∈ cells bp G T ↔ c.1 < G ∧ c.2 + timeFactor bp < T := by
  obtain ⟨g, t⟩ := c
  unfold cells
  cases bp
  · simp [timeFactor]; omega
  · simp [timeFactor]

theorem cells_pairwise (bp : BasePeriod) (G T : ℕ) :
    (cells bp G T).Pairwise fun c d => c.1 < d.1 ∨ (c.1 = d.1 ∧ c.2 < d.2) := by
  unfold cells
  rw [List.pairwise_flatMap]
  constructor
  · intro g _
    rw [List.pairwise_map]
    exact (List.pairwise_lt_range).imp fun h => Or.inr ⟨rfl, h⟩
  · refine (List.pairwise_lt_range (n := G)).imp ?_
    intro g g' hgg c hc d hd
    obtain ⟨_, _, rfl⟩ := List.mem_map.1 hc
    obtain ⟨_, _, rfl⟩ := List.mem_map.1 hd
    exact Or.inl hgg

theorem collect_append {A B : Type*} (rs : List (Option (A × B))) (as : List A) (bs : List B) :
    rs.foldl collectStep (as, bs) =
    (as ++ (rs.filterMap id).map Prod.fst, bs ++ (rs.filterMap id).map Prod.snd) := by
  induction rs generalizing as bs with
  | nil => simp
  | cons r rs ih =>
    rw [List.foldl_cons]
    cases r with
    | none => rw [show collectStep (as, bs) none = (as, bs) from rfl, ih]; simp
    | some p =>
      obtain ⟨a, b⟩ := p
      rw [show collectStep (as, bs) (some (a, b)) = (as ++ [a], bs ++ [b]) from rfl, ih]; simp

theorem collect_eq {A B : Type*} (rs : List (Option (A × B))) :
    collect rs = ((rs.filterMap id).map Prod.fst, (rs.filterMap id).map Prod.snd) := by
  unfold collect; rw [collect_append]; simp

theorem mapM_option_some {α β : Type*} {f : α → Option β} : ∀ {l : List α} {r : List β},
    l.mapM f = some r → l.map f = r.map some
  | [], r, h => by
    simp only [List.mapM_nil, Option.pure_def, Option.some.injEq] at h
    subst h; rfl
  | a :: l, r, h => by
    rw [List.mapM_cons] at h
    cases ha : f a with
    | none => rw [ha] at h; simp at h
    | some b =>
      rw [ha] at h
      cases hl : l.mapM f with
      | none => rw [hl] at h; simp at h
      | some bs =>
        rw [hl] at h
        simp only [Option.pure_def, Option.bind_eq_bind, Option.bind_some, Option.some.injEq] at h
        subst h
        rw [List.map_cons, List.map_cons, ha, mapM_option_some hl]

variable {K : Type*} [Field K]

/-- **C22, enumeration.** The loop visits every (cohort, period) pair exactly once in cohort-major, chronological
order; under a varying base only the first period is left out. -/
theorem C22_cells_enumerated (bp : BasePeriod) (G T : ℕ) :
    (∀ g t, (g, t) ∈ cells bp G T ↔ g < G ∧ t + timeFactor bp < T) ∧
    (cells bp G T).Pairwise (fun c d => c.1 < d.1 ∨ (c.1 = d.1 ∧ c.2 < d.2)) ∧ (cells bp G T).Nodup := by
  refine ⟨fun g t => mem_cells, cells_pairwise bp G T, ?_⟩
  refine (cells_pairwise bp G T).imp ?_
  rintro c d h rfl
  rcases h with h | h <;> omega

/-- **C22, alignment.** The reported estimates and influence-function columns come from one common sub-sequence of the
enumerated cells: the `k`-th estimate, its labels (cohort, period) and the `k`-th column all belong to the `k`-th
surviving cell; a cell survives iff its processing returned a result, and under a universal base all survive. -/
theorem C22_results_aligned (bp : BasePeriod) (est : Estimator K) (D : Data K) (atts : List (ATTgt K))
    (ifs : List (List K)) (h : computeAttGt bp est D = some (atts, ifs)) :
    ∃ sub : List (ℕ × ℕ), sub.Sublist (cells bp D.groups.length D.periods.length) ∧
      (∀ c ∈ cells bp D.groups.length D.periods.length,
        c ∈ sub ↔ ∃ a f, processCell bp est D c = some (some (a, f))) ∧
      atts.length = sub.length ∧ ifs.length = sub.length ∧
      (∀ k (hk : k < sub.length), ∃ a f, processCell bp est D sub[k] = some (some (a, f)) ∧
        atts[k]? = some a ∧ ifs[k]? = some f ∧
        D.groups[sub[k].1]? = some a.group ∧ D.periods[sub[k].2 + timeFactor bp]? = some a.year) ∧
      (bp = .universal → sub = cells bp D.groups.length D.periods.length) := by
  unfold computeAttGt at h
  obtain ⟨rs, hrs, hc⟩ := Option.map_eq_some_iff.1 h
  have hmap := mapM_option_some hrs
  rw [collect_eq] at hc
  generalize hcells : cells bp D.groups.length D.periods.length = cs at *
  let sub := cs.filter fun c => match processCell bp est D c with
    | some (some _) => true
    | _ => false
  have hsubmem : ∀ c, c ∈ sub ↔ c ∈ cs ∧ ∃ a f, processCell bp est D c = some (some (a, f)) := by
    intro c
    simp only [sub, List.mem_filter]
    refine and_congr_right fun _ => ?_
    cases hp : processCell bp est D c with
    | none => simp
    | some r => cases r with
      | none => simp
      | some p => obtain ⟨a, f⟩ := p; simp
  -- relation between rs and sub
  have hrel : ∀ (cs : List (ℕ × ℕ)) (rs : List (Option (ATTgt K × List K))),
      cs.map (processCell bp est D) = rs.map some →
      (cs.filter fun c => match processCell bp est D c with
        | some (some _) => true
        | _ => false).map (processCell bp est D) = (rs.filterMap id).map fun p => some (some p) := by
    intro cs
    induction cs with
    | nil => intro rs h; cases rs <;> simp_all
    | cons c cs ih =>
      intro rs h
      cases rs with
      | nil => simp at h
      | cons r rs =>
        rw [List.map_cons, List.map_cons, List.cons.injEq] at h
        cases r with
        | none =>
          rw [List.filter_cons_of_neg (by simp [h.1]), ih rs h.2]; simp
        | some p =>
          rw [List.filter_cons_of_pos (by simp [h.1]), List.map_cons, h.1, ih rs h.2]; simp
  have hr := hrel cs rs hmap
  change sub.map (processCell bp est D) = _ at hr
  have hlen : sub.length = (rs.filterMap id).length := by simpa using congrArg List.length hr
  have ha : atts = (rs.filterMap id).map Prod.fst := (congrArg Prod.fst hc).symm
  have hf : ifs = (rs.filterMap id).map Prod.snd := (congrArg Prod.snd hc).symm
  refine ⟨sub, List.filter_sublist, fun c hcm => by rw [hsubmem c]; simp [hcm], by rw [ha, hlen]; simp,
    by rw [hf, hlen]; simp, ?_, ?_⟩
  · intro k hk
    have hk' : k < (rs.filterMap id).length := by omega
    have e := List.getElem_of_eq hr (i := k) (by simpa using hk)
    rw [List.getElem_map, List.getElem_map] at e
    refine ⟨(rs.filterMap id)[k].1, (rs.filterMap id)[k].2, e, ?_, ?_, ?_⟩
    · rw [ha, List.getElem?_map, List.getElem?_eq_getElem hk']; rfl
    · rw [hf, List.getElem?_map, List.getElem?_eq_getElem hk']; rfl
    · generalize (rs.filterMap id)[k] = p at e
      generalize sub[k] = c at e
      unfold processCell at e
      split at e
      · next g t hg ht =>
        simp only at e
        rw [hg, ht]
        split at e
        · cases e
        · split at e <;> simp at e
          rw [← e]; simp
        · simp at e; rw [← e]; simp
        · simp at e; rw [← e]; simp
      · cases e
  · rintro rfl
    apply List.filter_eq_self.2
    intro c hcm
    have hsome : ∃ r, processCell .universal est D c = some r := by
      obtain ⟨j, hj, rfl⟩ := List.getElem_of_mem hcm
      have := List.getElem_of_eq hmap (i := j) (by simpa using hj)
      rw [List.getElem_map, List.getElem_map] at this
      exact ⟨_, this⟩
    obtain ⟨r, hr'⟩ := hsome
    rw [hr']
    cases r with
    | some p => rfl
    | none =>
      exfalso
      unfold processCell at hr'
      split at hr'
      · simp only at hr'
        split at hr' <;> simp at hr'
      · cases hr'

end Verif.AttGt
