import Mathlib.Data.List.Basic
import Mathlib.Data.List.Nodup
import Mathlib.Logic.Relation
import Mathlib.Order.Basic

/-!
# C23: `parallel_map` does not depend on thread scheduling

Small-step model of `moderndid/core/parallel.py:10-53`.  A task is `func(*args_list[i])`; it either returns a value or
raises.  Tasks are pure (they share no mutable state; context variables are copied per task, lines 44-46, see C65).
The executor's work queue is FIFO, at most `W` tasks run at once, running tasks finish in any order, and
`as_completed` delivers finished futures to the main thread in any order.  Every interleaving of these steps is a
schedule of the model.
-/

namespace Verif.Parallel

variable {α β ε : Type*}

/-- State of a parallel run. -/
structure PState (β ε : Type*) where
  /-- submitted, not started (indices into `args_list`) -/
  queue : List ℕ
  /-- being executed by a worker -/
  running : List ℕ
  /-- finished futures not yet delivered to the main thread -/
  finished : List ℕ
  /-- the `results` list of the main thread (`None` entries are `none`) -/
  results : List (Option β)
  /-- exception raised by `future.result()` in the main thread -/
  exn : Option ε

/-- Initial state: `results = [None] * len(args_list)`, every task submitted in order; `parallel.py:40,48-51`. -/
def initial (n : ℕ) : PState β ε :=
  ⟨List.range n, [], [], List.replicate n none, none⟩

/-- One step of some thread. `task i` is the result of `func(*args_list[i])`. -/
inductive Step (task : ℕ → Except ε β) (W : ℕ) : PState β ε → PState β ε → Prop
  /-- a free worker takes the next task from the queue -/
  | start (s : PState β ε) (i : ℕ) (q : List ℕ) (hq : s.queue = i :: q) (hw : s.running.length < W) :
      Step task W s { s with queue := q, running := i :: s.running }
  /-- a worker finishes some running task -/
  | finish (s : PState β ε) (i : ℕ) (hi : i ∈ s.running) :
      Step task W s { s with running := s.running.erase i, finished := i :: s.finished }
  /-- the main thread receives a finished future that returned: `results[idx] = future.result()`, line 54 -/
  | consumeOk (s : PState β ε) (i : ℕ) (v : β) (he : s.exn = none) (hi : i ∈ s.finished) (hv : task i = .ok v) :
      Step task W s { s with finished := s.finished.erase i, results := s.results.set i (some v) }
  /-- the main thread receives a finished future that raised: `future.result()` re-raises -/
  | consumeErr (s : PState β ε) (i : ℕ) (e : ε) (he : s.exn = none) (hi : i ∈ s.finished)
      (hv : task i = .error e) :
      Step task W s { s with finished := s.finished.erase i, exn := some e }

/-- What the caller of `parallel_map` sees in a state: the returned list once all futures were delivered
(a `none` entry would be a Python `None` placeholder), or the exception once the `with` block has waited for the
workers; `none` while the call is still in progress. -/
def outcome (s : PState β ε) : Option (Except ε (List (Option β))) :=
  match s.exn with
  | none => if s.queue = [] ∧ s.running = [] ∧ s.finished = [] then some (.ok s.results) else none
  | some e => if s.queue = [] ∧ s.running = [] then some (.error e) else none

/-- The sequential path, `parallel.py:36-37`: evaluate in order, stop at the first exception. -/
def sequential (func : α → Except ε β) : List α → Except ε (List β)
  | [] => .ok []
  | a :: as => match func a with
    | .error e => .error e
    | .ok v => match sequential func as with
      | .error e => .error e
      | .ok vs => .ok (v :: vs)

/-! ## Specification of the sequential path -/

theorem sequential_ok {func : α → Except ε β} : ∀ {args : List α} {vs : List β},
    sequential func args = .ok vs ↔ args.map func = vs.map .ok
  | [], vs => by cases vs <;> simp [sequential]
  | a :: as, vs => by
    rw [sequential]
    cases hf : func a with
    | error e => cases vs <;> simp [hf]
    | ok v =>
      cases hs : sequential func as with
      | error e =>
        simp only [List.map_cons, hf]
        constructor
        · intro h; cases h
        · intro h
          cases vs with
          | nil => simp at h
          | cons w ws =>
            rw [List.map_cons, List.cons.injEq] at h
            rw [sequential_ok.2 h.2] at hs; cases hs
      | ok ws =>
        have ih := sequential_ok.1 hs
        simp only [List.map_cons, hf, ih]
        constructor
        · intro h; cases h; rfl
        · intro h
          cases vs with
          | nil => simp at h
          | cons w ws' =>
            rw [List.map_cons, List.cons.injEq] at h
            have h1 : v = w := by simpa using h.1
            have h2 : ws = ws' := by
              have := h.2
              exact List.map_injective_iff.2 (fun x y hxy => by simpa using hxy) this
            rw [h1, h2]

theorem sequential_error_iff {func : α → Except ε β} : ∀ {args : List α},
    (∃ e, sequential func args = .error e) ↔ ∃ a ∈ args, ∃ e, func a = .error e
  | [] => by simp [sequential]
  | a :: as => by
    rw [sequential]
    cases hf : func a with
    | error e => simp [hf]
    | ok v =>
      have ih := sequential_error_iff (func := func) (args := as)
      cases hs : sequential func as with
      | error e =>
        rw [hs] at ih
        simpa [hf] using ih
      | ok ws =>
        rw [hs] at ih
        simpa [hf] using ih

/-! ## Invariant -/

/-- The inductive invariant of a run over `n` tasks. -/
structure Inv (task : ℕ → Except ε β) (n : ℕ) (s : PState β ε) : Prop where
  len : s.results.length = n
  lt : ∀ i, i ∈ s.queue ∨ i ∈ s.running ∨ i ∈ s.finished → i < n
  val : ∀ i v, s.results[i]? = some (some v) → task i = .ok v
  pend : ∀ i, i < n → s.results[i]? = some none →
    i ∈ s.queue ∨ i ∈ s.running ∨ i ∈ s.finished ∨ ∃ e, s.exn = some e
  err : ∀ e, s.exn = some e → ∃ i, i < n ∧ task i = .error e

theorem inv_initial (task : ℕ → Except ε β) (n : ℕ) : Inv task n (initial n) where
  len := by simp [initial]
  lt := by simp [initial]
  val := by
    intro i v h
    simp only [initial, List.getElem?_replicate] at h
    split_ifs at h; simp at h
  pend := by intro i hi _; left; simpa [initial] using hi
  err := by simp [initial]

theorem mem_erase_or {l : List ℕ} {i j : ℕ} (h : j ∈ l) : j = i ∨ j ∈ l.erase i := by
  by_cases hji : j = i
  · exact Or.inl hji
  · exact Or.inr ((List.mem_erase_of_ne hji).2 h)

theorem inv_step {task : ℕ → Except ε β} {W n : ℕ} {s s' : PState β ε} (h : Inv task n s)
    (hst : Step task W s s') : Inv task n s' := by
  cases hst with
  | start i q hq hw =>
    refine ⟨h.len, ?_, h.val, ?_, h.err⟩
    · intro j hj
      simp only [List.mem_cons] at hj
      apply h.lt j
      rw [hq, List.mem_cons]
      tauto
    · intro j hj hr
      have := h.pend j hj hr
      rw [hq, List.mem_cons] at this
      simp only [List.mem_cons]
      tauto
  | finish i hi =>
    refine ⟨h.len, ?_, h.val, ?_, h.err⟩
    · intro j hj
      simp only [List.mem_cons] at hj
      apply h.lt j
      rcases hj with hj | hj | hj | hj
      · exact Or.inl hj
      · exact Or.inr (Or.inl (List.mem_of_mem_erase hj))
      · exact Or.inr (Or.inl (hj ▸ hi))
      · exact Or.inr (Or.inr hj)
    · intro j hj hr
      simp only [List.mem_cons]
      rcases h.pend j hj hr with h1 | h1 | h1 | h1
      · exact Or.inl h1
      · rcases mem_erase_or (i := i) h1 with h2 | h2
        · exact Or.inr (Or.inr (Or.inl (Or.inl h2)))
        · exact Or.inr (Or.inl h2)
      · exact Or.inr (Or.inr (Or.inl (Or.inr h1)))
      · exact Or.inr (Or.inr (Or.inr h1))
  | consumeOk i v he hi hv =>
    refine ⟨by simpa using h.len, ?_, ?_, ?_, h.err⟩
    · intro j hj
      apply h.lt j
      rcases hj with hj | hj | hj
      · exact Or.inl hj
      · exact Or.inr (Or.inl hj)
      · exact Or.inr (Or.inr (List.mem_of_mem_erase hj))
    · intro j w hj
      simp only [List.getElem?_set] at hj
      split_ifs at hj with h1 h2
      · subst h1
        simp only [Option.some.injEq] at hj
        rw [← hj]; exact hv
      · exact h.val j w hj
    · intro j hj hr
      simp only [List.getElem?_set] at hr
      split_ifs at hr with h1 h2
      · simp at hr
      · rcases h.pend j hj hr with h3 | h3 | h3 | h3
        · exact Or.inl h3
        · exact Or.inr (Or.inl h3)
        · rcases mem_erase_or (i := i) h3 with h4 | h4
          · exact absurd h4.symm h1
          · exact Or.inr (Or.inr (Or.inl h4))
        · exact Or.inr (Or.inr (Or.inr h3))
  | consumeErr i e he hi hv =>
    refine ⟨h.len, ?_, h.val, ?_, ?_⟩
    · intro j hj
      apply h.lt j
      rcases hj with hj | hj | hj
      · exact Or.inl hj
      · exact Or.inr (Or.inl hj)
      · exact Or.inr (Or.inr (List.mem_of_mem_erase hj))
    · intro j hj hr
      exact Or.inr (Or.inr (Or.inr ⟨e, rfl⟩))
    · intro e' he'
      simp only [Option.some.injEq] at he'
      subst he'
      exact ⟨i, h.lt i (Or.inr (Or.inr hi)), hv⟩

theorem inv_reach {task : ℕ → Except ε β} {W n : ℕ} {s : PState β ε}
    (h : Relation.ReflTransGen (Step task W) (initial n) s) : Inv task n s := by
  induction h with
  | refl => exact inv_initial task n
  | tail _ hst ih => exact inv_step ih hst

/-- The task list of `parallel_map(func, args_list)`. -/
def taskOf (func : α → Except ε β) (args : List α) (dflt : ε) (i : ℕ) : Except ε β :=
  match args[i]? with
  | some a => func a
  | none => .error dflt

/-- **C23.** Under every schedule, when the call ends: if it returns a list, that list is exactly the list returned by
the sequential path (every slot filled, in input order); if it raises, then some task raised that exception and the
sequential path raises too. -/
theorem C23_schedule_irrelevant (func : α → Except ε β) (args : List α) (dflt : ε) (W : ℕ) (s : PState β ε)
    (hr : Relation.ReflTransGen (Step (taskOf func args dflt) W) (initial args.length) s)
    (o : Except ε (List (Option β))) (ho : outcome s = some o) :
    (∀ rs, o = .ok rs → ∃ vs, sequential func args = .ok vs ∧ rs = vs.map some) ∧
    (∀ e, o = .error e → (∃ a ∈ args, func a = .error e) ∧ ∃ e', sequential func args = .error e') := by
  have hi := inv_reach hr
  unfold outcome at ho
  constructor
  · rintro rs rfl
    cases hx : s.exn with
    | some e => rw [hx] at ho; simp only at ho; (split_ifs at ho; simp at ho)
    | none =>
      rw [hx] at ho
      simp only at ho
      split_ifs at ho with hq
      simp only [Option.some.injEq, Except.ok.injEq] at ho
      subst ho
      have hall : ∀ i (h : i < args.length), ∃ v, s.results[i]? = some (some v) ∧ func args[i] = .ok v := by
        intro i hlt
        cases hres : s.results[i]? with
        | none => rw [List.getElem?_eq_none_iff, hi.len] at hres; omega
        | some r =>
          cases r with
          | none =>
            have := hi.pend i hlt hres
            rw [hq.1, hq.2.1, hq.2.2, hx] at this
            simp at this
          | some v =>
            refine ⟨v, rfl, ?_⟩
            have := hi.val i v hres
            unfold taskOf at this
            rwa [List.getElem?_eq_getElem hlt] at this
      have hsome : ∀ (l : List (Option β)), (∀ x ∈ l, ∃ v, x = some v) → ∃ vs : List β, l = vs.map some := by
        intro l
        induction l with
        | nil => intro _; exact ⟨[], rfl⟩
        | cons x l ih =>
          intro h
          obtain ⟨v, rfl⟩ := h x (by simp)
          obtain ⟨vs, rfl⟩ := ih fun y hy => h y (by simp [hy])
          exact ⟨v :: vs, rfl⟩
      obtain ⟨vs, hvs⟩ := hsome s.results (by
        intro x hx
        obtain ⟨i, hlt, rfl⟩ := List.getElem_of_mem hx
        obtain ⟨v, hv, _⟩ := hall i (by rw [← hi.len]; exact hlt)
        rw [List.getElem?_eq_getElem hlt] at hv
        exact ⟨v, Option.some.inj hv⟩)
      refine ⟨vs, sequential_ok.2 ?_, hvs⟩
      have hlen : vs.length = args.length := by rw [← hi.len, hvs, List.length_map]
      apply List.ext_getElem
      · simp [hlen]
      · intro i h1 h2
        have h3 : i < args.length := by simpa using h1
        obtain ⟨v, hv, hf⟩ := hall i h3
        rw [hvs, List.getElem?_map, List.getElem?_eq_getElem (by omega)] at hv
        simp only [Option.map_some, Option.some.injEq] at hv
        rw [List.getElem_map, List.getElem_map, hf, hv]
  · rintro e rfl
    cases hx : s.exn with
    | none => rw [hx] at ho; simp only at ho; split_ifs at ho; simp at ho
    | some e' =>
      rw [hx] at ho
      simp only at ho
      split_ifs at ho
      simp only [Option.some.injEq, Except.error.injEq] at ho
      subst ho
      obtain ⟨i, hlt, ht⟩ := hi.err e' hx
      unfold taskOf at ht
      rw [List.getElem?_eq_getElem hlt] at ht
      have hex : ∃ a ∈ args, func a = .error e' := ⟨args[i], List.getElem_mem hlt, ht⟩
      exact ⟨hex, sequential_error_iff.2 ⟨hex.choose, hex.choose_spec.1, e', hex.choose_spec.2⟩⟩

/-- Total work left. -/
def work (s : PState β ε) : ℕ := 3 * s.queue.length + 2 * s.running.length + s.finished.length

theorem step_decreases {task : ℕ → Except ε β} {W : ℕ} {s s' : PState β ε} (h : Step task W s s') :
    work s' < work s := by
  cases h with
  | start i q hq hw => simp only [work, hq, List.length_cons]; omega
  | finish i hi =>
    have := List.length_pos_of_mem hi
    simp only [work, List.length_erase_of_mem hi, List.length_cons]; omega
  | consumeOk i v he hi hv =>
    have := List.length_pos_of_mem hi
    simp only [work, List.length_erase_of_mem hi]; omega
  | consumeErr i e he hi hv =>
    have := List.length_pos_of_mem hi
    simp only [work, List.length_erase_of_mem hi]; omega

/-- **C23, termination.** With at least one worker the call never deadlocks and never runs forever: every state
without an outcome has a next step, and every step strictly decreases a natural number (so a run over `n` tasks has at
most `3 n` steps). -/
theorem C23_always_terminates {n : ℕ} (task : ℕ → Except ε β) (W : ℕ) (hW : 0 < W) (s : PState β ε) :
    (outcome s = none → ∃ s', Step task W s s') ∧
    (∀ s', Step task W s s' → work s' < work s) ∧ work (initial n : PState β ε) = 3 * n := by
  refine ⟨?_, fun s' h => step_decreases h, by simp [work, initial]⟩
  intro ho
  unfold outcome at ho
  cases hr : s.running with
  | cons i r => exact ⟨_, Step.finish s i (by simp [hr])⟩
  | nil =>
    cases hq : s.queue with
    | cons i q => exact ⟨_, Step.start s i q hq (by simpa [hr] using hW)⟩
    | nil =>
      cases hx : s.exn with
      | some e => rw [hx] at ho; simp [hq, hr] at ho
      | none =>
        rw [hx] at ho
        simp only [hq, hr, true_and] at ho
        split_ifs at ho with hf
        obtain ⟨i, l, hl⟩ := List.exists_cons_of_ne_nil hf
        cases ht : task i with
        | ok v => exact ⟨_, Step.consumeOk s i v hx (by simp [hl]) ht⟩
        | error e => exact ⟨_, Step.consumeErr s i e hx (by simp [hl]) ht⟩

/-- **C23, every maximal run produces an outcome.** From every state some outcome is reachable. -/
theorem C23_outcome_reachable (task : ℕ → Except ε β) (W : ℕ) (hW : 0 < W) (s : PState β ε) :
    ∃ s', Relation.ReflTransGen (Step task W) s s' ∧ (outcome s').isSome := by
  induction hw : work s using Nat.strongRecOn generalizing s with
  | _ k ih =>
    cases ho : outcome s with
    | some o => exact ⟨s, Relation.ReflTransGen.refl, by simp [ho]⟩
    | none =>
      obtain ⟨s1, h1⟩ := (C23_always_terminates (n := 0) task W hW s).1 ho
      obtain ⟨s2, h2, h3⟩ := ih (work s1) (hw ▸ step_decreases h1) s1 rfl
      exact ⟨s2, Relation.ReflTransGen.head h1 h2, h3⟩

/-- The exception that reaches the caller is *not* determined by the input when two tasks fail: with two workers the
run may surface the second task's exception, while the sequential path surfaces the first one's. -/
theorem C23_same_exception_violated :
    ∃ (func : ℕ → Except String ℕ) (args : List ℕ) (s : PState ℕ String),
      Relation.ReflTransGen (Step (taskOf func args "") 2) (initial args.length) s ∧
      outcome s = some (.error "second") ∧ sequential func args = .error "first" := by
  let func : ℕ → Except String ℕ := fun k => if k = 0 then .error "first" else .error "second"
  refine ⟨func, [0, 1], ⟨[], [], [0], [none, none], some "second"⟩, ?_, rfl, rfl⟩
  refine .head (Step.start _ 0 [1] rfl (by decide)) ?_
  refine .head (Step.start _ 1 [] rfl (by decide)) ?_
  refine .head (Step.finish _ 1 (by decide)) ?_
  refine .head (Step.finish _ 0 (by decide)) ?_
  exact .single (Step.consumeErr _ 1 "second" rfl (by decide) rfl)

/-- A complete run of three tasks on two workers, delivered out of order. -/
example : ∃ s : PState ℕ String,
    Relation.ReflTransGen (Step (taskOf (fun k : ℕ => .ok (k * 10)) [5, 6, 7] "") 2) (initial 3) s ∧
      outcome s = some (.ok [some 50, some 60, some 70]) := by
  refine ⟨⟨[], [], [], [some 50, some 60, some 70], none⟩, ?_, rfl⟩
  refine .head (Step.start _ 0 [1, 2] rfl (by decide)) ?_
  refine .head (Step.start _ 1 [2] rfl (by decide)) ?_
  refine .head (Step.finish _ 1 (by decide)) ?_
  refine .head (Step.start _ 2 [] rfl (by decide)) ?_
  refine .head (Step.finish _ 2 (by decide)) ?_
  refine .head (Step.consumeOk _ 2 70 rfl (by decide) rfl) ?_
  refine .head (Step.consumeOk _ 1 60 rfl (by decide) rfl) ?_
  refine .head (Step.finish _ 0 (by decide)) ?_
  exact .single (Step.consumeOk _ 0 50 rfl (by decide) rfl)

end Verif.Parallel
