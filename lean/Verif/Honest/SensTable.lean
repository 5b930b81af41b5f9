import Verif.Honest.Sens
import Verif.Honest.UpperM
import Verif.Honest.ArpCI
import Verif.Honest.IdentifiedRM

/-!
# C174, C175: the tables of `create_sensitivity_results_sm` and `create_sensitivity_results_rm`

Model of `didhonest/sensitivity.py:213-309,461-547` and `didhonest/wrappers.py:26-88`.
-/

set_option linter.unusedSectionVars false
set_option linter.unusedSimpArgs false

namespace Verif.Honest

open Finset

/-! ## Model -/

/-- The conditional confidence set that is computed, `wrappers.py:46-52,76-88`; the shape restrictions carry their direction
(`sensitivity.py:284-287,528-531`). -/
inductive CsFn
  | sd | sdm (dir : String) | sdb (dir : String)
  | rm | rmm (dir : String) | rmb (dir : String)
  | sdrm | sdrmm (dir : String) | sdrmb (dir : String)
  deriving DecidableEq

/-- `DeltaMethodSelector.get_smoothness_method`, `wrappers.py:46-52`. -/
def smSelect (mono bias : Option String) : CsFn × String :=
  match mono, bias with
  | none, none => (.sd, "DeltaSD")
  | some d, _ => (.sdm d, if d = "increasing" then "DeltaSDI" else "DeltaSDD")
  | none, some d => (.sdb d, if d = "positive" then "DeltaSDPB" else "DeltaSDNB")

/-- `DeltaMethodSelector.get_relative_magnitude_method`, `wrappers.py:76-88`; `linear` stands for the bound "deviation from linear trend". -/
def rmSelect (linear : Bool) (mono bias : Option String) : CsFn × String :=
  if linear = false then
    match mono, bias with
    | none, none => (.rm, "DeltaRM")
    | some d, _ => (.rmm d, if d = "increasing" then "DeltaRMI" else "DeltaRMD")
    | none, some d => (.rmb d, if d = "positive" then "DeltaRMPB" else "DeltaRMNB")
  else
    match mono, bias with
    | none, none => (.sdrm, "DeltaSDRM")
    | some d, _ => (.sdrmm d, if d = "increasing" then "DeltaSDRMI" else "DeltaSDRMD")
    | none, some d => (.sdrmb d, if d = "positive" then "DeltaSDRMPB" else "DeltaSDRMNB")

/-- A row of the table; `none` is NaN. -/
structure SensRow where
  lb : Option ℝ
  ub : Option ℝ
  method : String
  delta : String
  m : ℝ

/-- First and last accepted grid value, `sensitivity.py:290-296,534-540`. -/
def rowBounds (cs : List (ℝ × Bool)) : Option (ℝ × ℝ) :=
  match (cs.filter fun x => x.2).head?, (cs.filter fun x => x.2).getLast? with
  | some a, some b => some (a.1, b.1)
  | _, _ => none

/-- All results of a loop, or the first exception. -/
def collect {α : Type*} : List (Option α) → Option (List α)
  | [] => some []
  | none :: _ => none
  | some a :: t => (collect t).map (a :: ·)

/-- `hybrid_flag` of a method, `sensitivity.py:264-268`; `none` for an unknown method. -/
def hybridOf (method : String) : Option String :=
  if method = "Conditional" then some "ARP" else if method = "C-F" then some "FLCI" else if method = "C-LF" then some "LF" else none

/-- The row of one value of `M`, `sensitivity.py:247-302`: `flci m` and `cs fn flag m` are the results of `compute_flci` and of the conditional
confidence set (`none`: raised). -/
def smRow (fn : CsFn) (label method : String) (flci : ℝ → Option (ℝ × ℝ)) (cs : CsFn → String → ℝ → Option (List (ℝ × Bool))) (m : ℝ) :
    Option SensRow :=
  if method = "FLCI" then (flci m).map fun b => ⟨some b.1, some b.2, "FLCI", label, m⟩
  else (hybridOf method).bind fun flag => (cs fn flag m).map fun rows =>
    ⟨(rowBounds rows).map Prod.fst, (rowBounds rows).map Prod.snd, method, label, m⟩

/-- `create_sensitivity_results_sm` with `m_vec` given, `sensitivity.py:219-305`; `none` is a raised exception.  (Not modelled: the
validation of the shapes and of the covariance matrix, and warnings.) -/
def smTable (mono bias method : Option String) (mvec : List ℝ) (flci : ℝ → Option (ℝ × ℝ))
    (cs : CsFn → String → ℝ → Option (List (ℝ × Bool))) : Option (List SensRow) :=
  if mono.isSome = true ∧ bias.isSome = true then none
  else
    let sel := smSelect mono bias
    let meth := method.getD (if mono = none ∧ bias = none then "FLCI" else "C-F")
    collect (mvec.map (smRow sel.1 sel.2 meth flci cs))

/-- Default `m_vec`, `sensitivity.py:222-236`: `sd0` is the standard deviation of the first coefficient, `margin r` the quantile times the
standard error of the second difference `r`. -/
noncomputable def defaultM (p : ℕ) (beta margin : ℕ → ℝ) (sd0 : ℝ) : Option (List ℝ) :=
  if p = 1 then some (linGrid 0 sd0 10) else (upperM p beta margin).map fun u => linGrid 0 u 10

/-- `current_grid_lb`, `current_grid_ub`, `sensitivity.py:498-513`: `idset m` is the identified set under relative magnitudes, `sd` is
`sd_theta`. -/
noncomputable def rmGridRange (lo up : Option ℝ) (idset : ℝ → ℝ × ℝ) (sd m : ℝ) : ℝ × ℝ :=
  match lo, up with
  | some a, some b => (a, b)
  | _, _ => ((idset m).1 - 20 * sd, (idset m).2 + 20 * sd)

/-- `create_sensitivity_results_rm`, `sensitivity.py:467-547`, with `m_bar_vec` given; `cs fn flag range m` is the conditional confidence set on
the grid over `range`. -/
noncomputable def rmTable (p : ℕ) (bound : String) (mono bias : Option String) (method : String) (mvec : List ℝ) (lo up : Option ℝ)
    (idset : ℝ → ℝ × ℝ) (sd : ℝ) (cs : CsFn → String → ℝ × ℝ → ℝ → Option (List (ℝ × Bool))) : Option (List SensRow) :=
  if bound ≠ "deviation from parallel trends" ∧ bound ≠ "deviation from linear trend" then none
  else if mono.isSome = true ∧ bias.isSome = true then none
  else if method ≠ "Conditional" ∧ method ≠ "C-LF" then none
  else if bound = "deviation from linear trend" ∧ p < 3 then none
  else
    let sel := rmSelect (decide (bound = "deviation from linear trend")) mono bias
    collect (mvec.map fun m =>
      (cs sel.1 (if method = "Conditional" then "ARP" else "LF") (rmGridRange lo up idset sd m) m).map fun rows =>
        ⟨(rowBounds rows).map Prod.fst, (rowBounds rows).map Prod.snd, method, sel.2, m⟩)

/-! ## Specification -/

/-- The values marked as accepted. -/
def Accepted (cs : List (ℝ × Bool)) : Set ℝ := {x | (x, true) ∈ cs}

/-- The row summarises the set `S`: NaN bounds for the empty set, its smallest and its largest value otherwise. -/
def SensRow.Summarises (r : SensRow) (S : Set ℝ) : Prop :=
  (S = ∅ ∧ r.lb = none ∧ r.ub = none) ∨ ∃ a b, r.lb = some a ∧ r.ub = some b ∧ IsLeast S a ∧ IsGreatest S b

/-- Documented method of a table: the argument if given, else `FLCI` without a shape restriction and `C-F` with one. -/
def methodOf (mono bias method : Option String) : String :=
  match method with
  | some m => m
  | none => if mono.isSome || bias.isSome then "C-F" else "FLCI"

/-! ## Lemmas -/

theorem collect_spec {α β : Type*} (f : β → Option α) (l : List β) :
    (∀ r, collect (l.map f) = some r → r.length = l.length ∧ ∀ (i : ℕ) b, l[i]? = some b → ∃ a, r[i]? = some a ∧ f b = some a) ∧
    (collect (l.map f) = none ↔ ∃ b ∈ l, f b = none) := by
  induction l with
  | nil => simp [collect]
  | cons b t ih =>
    rw [List.map_cons]
    cases hb : f b with
    | none => simp [collect, hb]
    | some a =>
      cases ht : collect (t.map f) with
      | none =>
        simp only [collect, ht, Option.map_none, List.mem_cons]
        refine ⟨fun r hr => (by cases hr), fun _ => ?_, fun _ => trivial⟩
        obtain ⟨c, hc, e⟩ := ih.2.1 ht
        exact ⟨c, Or.inr hc, e⟩
      | some r' =>
        simp only [collect, ht, Option.map_some, Option.some.injEq, List.mem_cons]
        refine ⟨?_, ?_⟩
        · rintro r rfl
          obtain ⟨h1, h2⟩ := ih.1 r' ht
          refine ⟨by simp [h1], ?_⟩
          rintro (_ | i) c hc
          · simp only [List.getElem?_cons_zero, Option.some.injEq] at hc
            subst hc
            exact ⟨a, rfl, hb⟩
          · exact h2 i c (by simpa using hc)
        · constructor
          · intro h; cases h
          · rintro ⟨c, rfl | hc, e⟩
            · rw [hb] at e; cases e
            · have := ih.2.2 ⟨c, hc, e⟩
              rw [ht] at this
              cases this

theorem rowBounds_spec (cs : List (ℝ × Bool)) (hs : (cs.map Prod.fst).Pairwise (· < ·)) :
    (Accepted cs = ∅ ∧ rowBounds cs = none) ∨ ∃ a b, rowBounds cs = some (a, b) ∧ IsLeast (Accepted cs) a ∧ IsGreatest (Accepted cs) b := by
  have hmem : ∀ x, x ∈ Accepted cs ↔ ∃ y ∈ cs.filter (fun y => y.2), y.1 = x := by
    intro x
    constructor
    · intro h
      exact ⟨(x, true), List.mem_filter.2 ⟨h, rfl⟩, rfl⟩
    · rintro ⟨⟨y, b⟩, hy, rfl⟩
      obtain ⟨h1, h2⟩ := List.mem_filter.1 hy
      cases b with
      | true => exact h1
      | false => cases h2
  have hp : (cs.filter fun y => y.2).Pairwise fun a b => a.1 < b.1 := by
    have h1 : cs.Pairwise fun a b => a.1 < b.1 := List.pairwise_map.1 hs
    exact h1.sublist List.filter_sublist
  unfold rowBounds
  set L := cs.filter fun y => y.2 with hL
  cases e : L with
  | nil =>
    left
    refine ⟨?_, rfl⟩
    rw [Set.eq_empty_iff_forall_notMem]
    intro x hx
    obtain ⟨y, hy, -⟩ := (hmem x).1 hx
    rw [e] at hy
    cases hy
  | cons a t =>
    right
    obtain ⟨b, hb⟩ : ∃ b, (a :: t).getLast? = some b := ⟨_, List.getLast?_eq_some_getLast (by simp)⟩
    rw [hb]
    rw [e] at hp
    obtain ⟨h1, h2⟩ := List.pairwise_cons.1 hp
    refine ⟨a.1, b.1, rfl, ⟨(hmem _).2 ⟨a, by rw [e]; exact List.mem_cons_self, rfl⟩, ?_⟩, (hmem _).2 ⟨b, ?_, rfl⟩, ?_⟩
    · intro x hx
      obtain ⟨y, hy, rfl⟩ := (hmem x).1 hx
      rw [e] at hy
      rcases List.mem_cons.1 hy with rfl | hy
      · exact le_rfl
      · exact (h1 y hy).le
    · rw [e]
      exact List.mem_of_getLast? hb
    · intro x hx
      obtain ⟨y, hy, rfl⟩ := (hmem x).1 hx
      rw [e] at hy
      obtain ⟨pre, hpre⟩ : ∃ pre, a :: t = pre ++ [b] := by
        have := List.getLast?_eq_some_iff.1 hb
        exact this
      rw [hpre] at hy hp
      rcases List.mem_append.1 hy with hy | hy
      · exact ((List.pairwise_append.1 hp).2.2 y hy b (by simp)).le
      · rw [List.mem_singleton.1 hy]

/-! ## C174 -/

/-- C174.  Smoothness table: one row per value of `M`, in the order given, carrying that value, the method and the restriction; the bounds are
those of the fixed-length interval, or the smallest and largest accepted grid value of the confidence set of the selected restriction (NaN if
none is accepted). -/
theorem C174_sm (mono bias method : Option String) (mvec : List ℝ) (flci : ℝ → Option (ℝ × ℝ))
    (cs : CsFn → String → ℝ → Option (List (ℝ × Bool)))
    (hgrid : ∀ fn flag m rows, cs fn flag m = some rows → (rows.map Prod.fst).Pairwise (· < ·)) (rows : List SensRow)
    (h : smTable mono bias method mvec flci cs = some rows) :
    rows.length = mvec.length ∧ ∀ (i : ℕ) (m : ℝ), mvec[i]? = some m → ∃ r : SensRow, rows[i]? = some r ∧ r.m = m ∧ r.method = methodOf mono bias method ∧
      r.delta = (smSelect mono bias).2 ∧
      ((r.method = "FLCI" ∧ ∃ b, flci m = some b ∧ r.lb = some b.1 ∧ r.ub = some b.2) ∨
        ∃ flag set, (r.method, flag) ∈ [("Conditional", "ARP"), ("C-F", "FLCI"), ("C-LF", "LF")] ∧
          cs (smSelect mono bias).1 flag m = some set ∧ r.Summarises (Accepted set)) := by
  unfold smTable at h
  by_cases h0 : mono.isSome = true ∧ bias.isSome = true
  · rw [if_pos h0] at h; cases h
  rw [if_neg h0] at h
  dsimp only at h
  have hmeth : method.getD (if mono = none ∧ bias = none then "FLCI" else "C-F") = methodOf mono bias method := by
    unfold methodOf
    cases method with
    | some s => rfl
    | none => cases mono <;> cases bias <;> simp
  rw [hmeth] at h
  set meth := methodOf mono bias method with hm
  obtain ⟨h1, h2⟩ := (collect_spec _ _).1 rows h
  refine ⟨h1, fun i m hi => ?_⟩
  obtain ⟨r, hr, e⟩ := h2 i m hi
  refine ⟨r, hr, ?_⟩
  unfold smRow at e
  by_cases hf : meth = "FLCI"
  · rw [if_pos hf, Option.map_eq_some_iff] at e
    obtain ⟨b, hb, rfl⟩ := e
    exact ⟨rfl, hf.symm, rfl, Or.inl ⟨rfl, b, hb, rfl, rfl⟩⟩
  · rw [if_neg hf, Option.bind_eq_some_iff] at e
    obtain ⟨flag, hflag, e⟩ := e
    rw [Option.map_eq_some_iff] at e
    obtain ⟨set, hset, rfl⟩ := e
    refine ⟨rfl, rfl, rfl, Or.inr ⟨flag, set, ?_, hset, ?_⟩⟩
    · unfold hybridOf at hflag
      show (meth, flag) ∈ _
      split_ifs at hflag with a b c
      · cases hflag; rw [a]; simp
      · cases hflag; rw [b]; simp
      · cases hflag; rw [c]; simp
    · rcases rowBounds_spec set (hgrid _ _ _ _ hset) with ⟨e1, e2⟩ | ⟨a, b, e1, e2, e3⟩
      · left
        exact ⟨e1, by simp [e2], by simp [e2]⟩
      · right
        exact ⟨a, b, by simp [e1], by simp [e1], e2, e3⟩

/-- C174.  When the smoothness table raises: both directions given, or (with at least one value of `M`) an unknown method, or a raising
computation of an interval. -/
theorem C174_sm_raises (mono bias method : Option String) (mvec : List ℝ) (flci : ℝ → Option (ℝ × ℝ))
    (cs : CsFn → String → ℝ → Option (List (ℝ × Bool))) :
    smTable mono bias method mvec flci cs = none ↔
      (mono ≠ none ∧ bias ≠ none) ∨ (mvec ≠ [] ∧ methodOf mono bias method ∉ ["FLCI", "Conditional", "C-F", "C-LF"]) ∨
      ∃ m ∈ mvec, (methodOf mono bias method = "FLCI" ∧ flci m = none) ∨
        ∃ flag, (methodOf mono bias method, flag) ∈ [("Conditional", "ARP"), ("C-F", "FLCI"), ("C-LF", "LF")] ∧
          cs (smSelect mono bias).1 flag m = none := by
  unfold smTable
  by_cases h0 : mono.isSome = true ∧ bias.isSome = true
  · rw [if_pos h0]
    refine ⟨fun _ => Or.inl ⟨?_, ?_⟩, fun _ => rfl⟩
    · rintro rfl; simp at h0
    · rintro rfl; simp at h0
  rw [if_neg h0]
  have h0' : ¬(mono ≠ none ∧ bias ≠ none) := by
    rintro ⟨a, b⟩
    exact h0 ⟨Option.isSome_iff_ne_none.2 a, Option.isSome_iff_ne_none.2 b⟩
  dsimp only
  have hmeth : method.getD (if mono = none ∧ bias = none then "FLCI" else "C-F") = methodOf mono bias method := by
    unfold methodOf
    cases method with
    | some s => rfl
    | none => cases mono <;> cases bias <;> simp
  rw [hmeth, (collect_spec _ _).2]
  set meth := methodOf mono bias method
  have row : ∀ m, smRow (smSelect mono bias).1 (smSelect mono bias).2 meth flci cs m = none ↔
      meth ∉ ["FLCI", "Conditional", "C-F", "C-LF"] ∨ ((meth = "FLCI" ∧ flci m = none) ∨
        ∃ flag, (meth, flag) ∈ [("Conditional", "ARP"), ("C-F", "FLCI"), ("C-LF", "LF")] ∧ cs (smSelect mono bias).1 flag m = none) := by
    intro m
    unfold smRow hybridOf
    by_cases h1 : meth = "FLCI"
    · simp [h1]
    by_cases h2 : meth = "Conditional"
    · simp [h2]
    by_cases h3 : meth = "C-F"
    · simp [h3]
    by_cases h4 : meth = "C-LF"
    · simp [h4]
    simp [h1, h2, h3, h4]
  simp only [row]
  constructor
  · rintro ⟨m, hm, h | h⟩
    · exact Or.inr (Or.inl ⟨List.ne_nil_of_mem hm, h⟩)
    · exact Or.inr (Or.inr ⟨m, hm, h⟩)
  · rintro (h | ⟨h1, h2⟩ | ⟨m, hm, h⟩)
    · exact absurd h h0'
    · obtain ⟨m, hm⟩ := List.exists_mem_of_ne_nil _ h1
      exact ⟨m, hm, Or.inl h2⟩
    · exact ⟨m, hm, Or.inr h⟩

/-- C174.  Relative-magnitude table: it raises for an unknown bound or method, for two directions, and for the linear-trend bound with fewer
than three pre-periods; otherwise there is one row per value of `Mbar`, in order, with the smallest and largest accepted grid value of the
confidence set of the selected restriction. -/
theorem C174_rm (p : ℕ) (bound : String) (mono bias : Option String) (method : String) (mvec : List ℝ) (lo up : Option ℝ)
    (idset : ℝ → ℝ × ℝ) (sd : ℝ) (cs : CsFn → String → ℝ × ℝ → ℝ → Option (List (ℝ × Bool)))
    (hgrid : ∀ fn flag range m rows, cs fn flag range m = some rows → (rows.map Prod.fst).Pairwise (· < ·)) (rows : List SensRow)
    (h : rmTable p bound mono bias method mvec lo up idset sd cs = some rows) :
    (bound = "deviation from parallel trends" ∨ (bound = "deviation from linear trend" ∧ 3 ≤ p)) ∧ (mono = none ∨ bias = none) ∧
    rows.length = mvec.length ∧ ∀ (i : ℕ) (m : ℝ), mvec[i]? = some m → ∃ (r : SensRow) (set : List (ℝ × Bool)) (flag : String), rows[i]? = some r ∧ r.m = m ∧ r.method = method ∧
      (method, flag) ∈ [("Conditional", "ARP"), ("C-LF", "LF")] ∧
      r.delta = (rmSelect (decide (bound = "deviation from linear trend")) mono bias).2 ∧
      cs (rmSelect (decide (bound = "deviation from linear trend")) mono bias).1 flag (rmGridRange lo up idset sd m) m = some set ∧
      r.Summarises (Accepted set) := by
  unfold rmTable at h
  by_cases h1 : bound ≠ "deviation from parallel trends" ∧ bound ≠ "deviation from linear trend"
  · rw [if_pos h1] at h; cases h
  rw [if_neg h1] at h
  by_cases h2 : mono.isSome = true ∧ bias.isSome = true
  · rw [if_pos h2] at h; cases h
  rw [if_neg h2] at h
  by_cases h3 : method ≠ "Conditional" ∧ method ≠ "C-LF"
  · rw [if_pos h3] at h; cases h
  rw [if_neg h3] at h
  by_cases h4 : bound = "deviation from linear trend" ∧ p < 3
  · rw [if_pos h4] at h; cases h
  rw [if_neg h4] at h
  dsimp only at h
  obtain ⟨h5, h6⟩ := (collect_spec _ _).1 rows h
  refine ⟨?_, ?_, h5, fun i m hi => ?_⟩
  · by_cases hb : bound = "deviation from parallel trends"
    · exact Or.inl hb
    · right
      have hl : bound = "deviation from linear trend" := by
        by_contra hc
        exact h1 ⟨hb, hc⟩
      refine ⟨hl, ?_⟩
      by_contra hc
      exact h4 ⟨hl, by omega⟩
  · cases mono <;> cases bias <;> simp at h2 ⊢
  · obtain ⟨r, hr, e⟩ := h6 i m hi
    rw [Option.map_eq_some_iff] at e
    obtain ⟨set, hset, rfl⟩ := e
    refine ⟨_, set, _, hr, rfl, rfl, ?_, rfl, hset, ?_⟩
    · by_cases hc : method = "Conditional"
      · rw [if_pos hc, hc]; simp
      · have : method = "C-LF" := by
          by_contra hd
          exact h3 ⟨hc, hd⟩
        rw [if_neg hc, this]; simp
    · rcases rowBounds_spec set (hgrid _ _ _ _ _ hset) with ⟨e1, e2⟩ | ⟨a, b, e1, e2, e3⟩
      · left
        exact ⟨e1, by simp [e2], by simp [e2]⟩
      · right
        exact ⟨a, b, by simp [e1], by simp [e1], e2, e3⟩

/-- C174.  The labels determine the restriction: with the documented directions, equal labels mean the same confidence set, and the
fixed-length method reports the same bounds whatever restriction is requested. -/
theorem C174_labels (mono bias mono' bias' : Option String)
    (h1 : ∀ d, mono = some d → d ∈ ["increasing", "decreasing"]) (h2 : ∀ d, bias = some d → d ∈ ["positive", "negative"])
    (h1' : ∀ d, mono' = some d → d ∈ ["increasing", "decreasing"]) (h2' : ∀ d, bias' = some d → d ∈ ["positive", "negative"]) :
    ((smSelect mono bias).2 = (smSelect mono' bias').2 → (smSelect mono bias).1 = (smSelect mono' bias').1) ∧
    ∀ lin lin', (rmSelect lin mono bias).2 = (rmSelect lin' mono' bias').2 → (rmSelect lin mono bias).1 = (rmSelect lin' mono' bias').1 := by
  have hm : mono = none ∨ mono = some "increasing" ∨ mono = some "decreasing" := by
    cases mono with
    | none => exact Or.inl rfl
    | some d => have := h1 d rfl; simp at this; rcases this with rfl | rfl <;> simp
  have hb : bias = none ∨ bias = some "positive" ∨ bias = some "negative" := by
    cases bias with
    | none => exact Or.inl rfl
    | some d => have := h2 d rfl; simp at this; rcases this with rfl | rfl <;> simp
  have hm' : mono' = none ∨ mono' = some "increasing" ∨ mono' = some "decreasing" := by
    cases mono' with
    | none => exact Or.inl rfl
    | some d => have := h1' d rfl; simp at this; rcases this with rfl | rfl <;> simp
  have hb' : bias' = none ∨ bias' = some "positive" ∨ bias' = some "negative" := by
    cases bias' with
    | none => exact Or.inl rfl
    | some d => have := h2' d rfl; simp at this; rcases this with rfl | rfl <;> simp
  rcases hm with rfl | rfl | rfl <;> rcases hb with rfl | rfl | rfl <;> rcases hm' with rfl | rfl | rfl <;> rcases hb' with rfl | rfl | rfl <;>
    decide

/-- Documented restrictions of the smoothness table (`sensitivity.py:120-128`): monotonicity and bias direction, the confidence set used and its label. -/
def smDocumented : List (Option String × Option String × CsFn × String) :=
  [(none, none, .sd, "DeltaSD"), (some "increasing", none, .sdm "increasing", "DeltaSDI"), (some "decreasing", none, .sdm "decreasing", "DeltaSDD"),
    (none, some "positive", .sdb "positive", "DeltaSDPB"), (none, some "negative", .sdb "negative", "DeltaSDNB")]

/-- The same for the relative-magnitude table, with the bound type (`true`: deviation from linear trend). -/
def rmDocumented : List (Bool × Option String × Option String × CsFn × String) :=
  [(false, none, none, .rm, "DeltaRM"), (false, some "increasing", none, .rmm "increasing", "DeltaRMI"),
    (false, some "decreasing", none, .rmm "decreasing", "DeltaRMD"), (false, none, some "positive", .rmb "positive", "DeltaRMPB"),
    (false, none, some "negative", .rmb "negative", "DeltaRMNB"), (true, none, none, .sdrm, "DeltaSDRM"),
    (true, some "increasing", none, .sdrmm "increasing", "DeltaSDRMI"), (true, some "decreasing", none, .sdrmm "decreasing", "DeltaSDRMD"),
    (true, none, some "positive", .sdrmb "positive", "DeltaSDRMPB"), (true, none, some "negative", .sdrmb "negative", "DeltaSDRMNB")]

/-- C174.  Every documented restriction reaches its own confidence set and every row carries its label: if the table is computed with a
conditional method, the set of that restriction alone was evaluated, for each value of `M`. -/
theorem C174_dispatch (flci : ℝ → Option (ℝ × ℝ)) (cs : CsFn → String → ℝ → Option (List (ℝ × Bool))) (mvec : List ℝ)
    (lo up : Option ℝ) (idset : ℝ → ℝ × ℝ) (sd : ℝ) (csR : CsFn → String → ℝ × ℝ → ℝ → Option (List (ℝ × Bool))) :
    (∀ e ∈ smDocumented, smTable e.1 e.2.1 (some "C-LF") mvec flci cs =
      collect (mvec.map fun m => (cs e.2.2.1 "LF" m).map fun rows =>
        ⟨(rowBounds rows).map Prod.fst, (rowBounds rows).map Prod.snd, "C-LF", e.2.2.2, m⟩)) ∧
    ∀ e ∈ rmDocumented, rmTable 3 (if e.1 then "deviation from linear trend" else "deviation from parallel trends") e.2.1 e.2.2.1 "C-LF" mvec
        lo up idset sd csR =
      collect (mvec.map fun m => (csR e.2.2.2.1 "LF" (rmGridRange lo up idset sd m) m).map fun rows =>
        ⟨(rowBounds rows).map Prod.fst, (rowBounds rows).map Prod.snd, "C-LF", e.2.2.2.2, m⟩) := by
  constructor
  · intro e he
    simp only [smDocumented, List.mem_cons, List.not_mem_nil, or_false] at he
    rcases he with rfl | rfl | rfl | rfl | rfl <;> simp [smTable, smSelect, smRow, hybridOf] <;> rfl
  · intro e he
    simp only [rmDocumented, List.mem_cons, List.not_mem_nil, or_false] at he
    rcases he with rfl | rfl | rfl | rfl | rfl | rfl | rfl | rfl | rfl | rfl <;> simp [rmTable, rmSelect]

/-- C174 (violation).  A misspelt direction is not rejected by the fixed-length method: the table is computed without the restriction and
labelled as the opposite one. -/
theorem C174_direction_violated (mvec : List ℝ) (flci : ℝ → Option (ℝ × ℝ)) (cs : CsFn → String → ℝ → Option (List (ℝ × Bool)))
    (rows : List SensRow) (h : smTable (some "Increasing") none (some "FLCI") mvec flci cs = some rows) :
    (∀ r ∈ rows, r.delta = "DeltaSDD") ∧
      ∃ rows', smTable none none (some "FLCI") mvec flci cs = some rows' ∧ rows'.map (fun r => (r.lb, r.ub, r.m)) = rows.map fun r => (r.lb, r.ub, r.m) := by
  simp only [smTable, smSelect] at h ⊢
  simp at h ⊢
  induction mvec generalizing rows with
  | nil =>
    simp [collect] at h
    subst h
    simp [collect]
  | cons m t ih =>
    rw [List.map_cons] at h ⊢
    cases hf : flci m with
    | none => simp [smRow, hf, collect] at h
    | some b =>
      have e1 : smRow (CsFn.sdm "Increasing") "DeltaSDD" "FLCI" flci cs m = some ⟨some b.1, some b.2, "FLCI", "DeltaSDD", m⟩ := by
        simp [smRow, hf]
      have e2 : smRow CsFn.sd "DeltaSD" "FLCI" flci cs m = some ⟨some b.1, some b.2, "FLCI", "DeltaSD", m⟩ := by
        simp [smRow, hf]
      rw [e1] at h
      rw [e2]
      simp only [collect, Option.map_eq_some_iff] at h ⊢
      obtain ⟨r0, hr0, rfl⟩ := h
      obtain ⟨h3, r1, h4, h5⟩ := ih r0 hr0
      refine ⟨?_, _, ⟨r1, h4, rfl⟩, ?_⟩
      · intro r hr
        rcases List.mem_cons.1 hr with rfl | hr
        · rfl
        · exact h3 r hr
      · simpa using h5

/-- Two values of `M`; the accepted values at the second one are not contiguous, so the row also spans a rejected value. -/
example : ∃ rows, smTable none (some "positive") none [0, 1] (fun _ => none)
    (fun fn flag m => if fn = .sdb "positive" ∧ flag = "FLCI" then
      some (if m = 0 then [(0, false), (1, false)] else [(0, true), (1, false), (2, true), (3, false)]) else none) = some rows ∧
    rows.map (fun r => (r.lb, r.ub)) = [(none, none), (some 0, some 2)] ∧ rows.map (fun r => r.delta) = ["DeltaSDPB", "DeltaSDPB"] := by
  refine ⟨[⟨none, none, "C-F", "DeltaSDPB", 0⟩, ⟨some 0, some 2, "C-F", "DeltaSDPB", 1⟩], ?_, ?_, ?_⟩
  · simp [smTable, smSelect, smRow, hybridOf, collect, rowBounds]
  · simp
  · simp

/-! ## C175 -/

/-- C175.  The default values of `M`: ten equally spaced values from zero, up to the standard deviation of the first coefficient with one
pre-period, and up to the data-driven bound with at least three. -/
theorem C175_default (p : ℕ) (beta margin : ℕ → ℝ) (sd0 : ℝ) (mvec : List ℝ) (h : defaultM p beta margin sd0 = some mvec) :
    ∃ u, (p = 1 ∧ u = sd0 ∨ 3 ≤ p ∧ upperM p beta margin = some u) ∧ mvec.length = 10 ∧ ∀ i : ℕ, i < 10 → mvec[i]? = some ((i : ℝ) * (u / 9)) := by
  have key : ∀ u, (linGrid 0 u 10).length = 10 ∧ ∀ i : ℕ, i < 10 → (linGrid 0 u 10)[i]? = some ((i : ℝ) * (u / 9)) := by
    intro u
    refine ⟨by simp [linGrid], fun i hi => ?_⟩
    rw [linGrid_get _ _ _ _ hi, if_neg (by norm_num)]
    norm_num
  unfold defaultM at h
  by_cases hp : p = 1
  · rw [if_pos hp, Option.some.injEq] at h
    subst h
    exact ⟨sd0, Or.inl ⟨hp, rfl⟩, (key sd0).1, (key sd0).2⟩
  · rw [if_neg hp, Option.map_eq_some_iff] at h
    obtain ⟨u, hu, rfl⟩ := h
    refine ⟨u, Or.inr ⟨?_, hu⟩, (key u).1, (key u).2⟩
    by_contra hc
    have := (C89_upper_is_signed_max p beta margin).1.2 (by omega)
    rw [hu] at this
    cases this

/-- C175 (violation).  With exactly two pre-periods the default analysis raises, although it is defined for one and for three. -/
theorem C175_two_periods_violated (beta margin : ℕ → ℝ) (sd0 : ℝ) :
    defaultM 2 beta margin sd0 = none ∧ (∃ v, defaultM 1 beta margin sd0 = some v) ∧ ∀ p, 3 ≤ p → ∃ v, defaultM p beta margin sd0 = some v := by
  refine ⟨?_, ⟨_, rfl⟩, fun p hp => ?_⟩
  · unfold defaultM
    rw [if_neg (by norm_num), (C89_upper_is_signed_max 2 beta margin).1.2 (by norm_num)]
    rfl
  · unfold defaultM
    rw [if_neg (by omega)]
    cases hu : upperM p beta margin with
    | none =>
      have := (C89_upper_is_signed_max p beta margin).1.1 hu
      omega
    | some u => exact ⟨_, rfl⟩

/-- C175 (violation).  For a concave pre-trend all default values of `M` but the first are negative: no violation whatever satisfies the
restriction. -/
theorem C175_negative_violated (p q : ℕ) (hp : 3 ≤ p) (beta margin : ℕ → ℝ) (sd0 : ℝ) (h : ∀ r, r + 3 ≤ p → D2 beta r + margin r < 0) :
    ∃ mvec, defaultM p beta margin sd0 = some mvec ∧ ∀ i : ℕ, 1 ≤ i → i < 10 → ∃ m, mvec[i]? = some m ∧ m < 0 ∧ DeltaSD p q m = ∅ := by
  obtain ⟨M, hM, hneg, -⟩ := C89_sign_violated p q hp beta margin h
  obtain ⟨mvec, hv⟩ := (C175_two_periods_violated beta margin sd0).2.2 p hp
  obtain ⟨u, hu, -, hi⟩ := C175_default p beta margin sd0 mvec hv
  have : u = M := by
    rcases hu with ⟨h1, -⟩ | ⟨-, h1⟩
    · omega
    · rw [hM] at h1; cases h1; rfl
  subst this
  refine ⟨mvec, hv, fun i h1 h2 => ⟨_, hi i h2, ?_, ?_⟩⟩
  · have : (1 : ℝ) ≤ i := by exact_mod_cast h1
    have h3 : u / 9 < 0 := by linarith
    nlinarith
  · rw [Set.eq_empty_iff_forall_notMem]
    intro v hv
    have h4 := hv 0 (by omega)
    have h5 : (1 : ℝ) ≤ i := by exact_mod_cast h1
    have h6 : (i : ℝ) * (u / 9) < 0 := by nlinarith
    exact absurd (lt_of_le_of_lt h4 h6) (not_lt.2 (abs_nonneg _))

/-- C175.  Both grid limits given: they are used for every `Mbar`; (violation) a single limit is ignored. -/
theorem C175_grid_violated (a b : ℝ) (idset : ℝ → ℝ × ℝ) (sd m : ℝ) :
    rmGridRange (some a) (some b) idset sd m = (a, b) ∧ rmGridRange (some a) none idset sd m = rmGridRange none none idset sd m ∧
      rmGridRange none (some b) idset sd m = rmGridRange none none idset sd m := ⟨rfl, rfl, rfl⟩

/-- A strictly concave pre-trend of three coefficients without sampling error. -/
example : ∃ mvec, defaultM 3 (fun j => -(j : ℝ) ^ 2) (fun _ => 0) 1 = some mvec ∧ ∃ m, mvec[9]? = some m ∧ m < 0 := by
  obtain ⟨mvec, h1, h2⟩ := C175_negative_violated 3 1 le_rfl (fun j => -(j : ℝ) ^ 2) (fun _ => 0) 1 (by
    intro r hr
    have : r = 0 := by omega
    subst this
    norm_num [D2])
  obtain ⟨m, h3, h4, -⟩ := h2 9 (by norm_num) (by norm_num)
  exact ⟨mvec, h1, m, h3, h4⟩

end Verif.Honest
