import Mathlib.Logic.Relation
import Mathlib.Data.List.Basic

/-!
# C65: the array backend

Model of `moderndid/cupy/backend.py:34-82,206-238` and of the context handling of `core/parallel.py:11-57`, as a small-step
machine with an explicit stack, so that exceptions unwind through the `finally` clause of `use_backend`.
Not modelled: the memory-pool initialisation (`_init_rmm_pool`, whose failures are swallowed), the array modules themselves.
-/

set_option linter.unusedSectionVars false

namespace Verif.Infra

/-- The two backends. -/
inductive Backend where
  | numpy
  | cupy
deriving DecidableEq, Repr

/-- What the machine offers: is CuPy importable (`HAS_CUPY`), is a GPU available. -/
structure Env where
  hasCupy : Bool
  gpu : Bool

/-- `_validate_backend_name`, `backend.py:206-238`; `none` is a raised exception. -/
def validate (env : Env) (name : String) : Option Backend :=
  let n := name.toLower
  if ¬(n = "numpy" ∨ n = "cupy") then none
  else if n = "cupy" ∧ ¬env.hasCupy then none
  else if n = "cupy" then (if env.gpu then some .cupy else none)
  else some .numpy

/-- The context variable: `none` when it was never set (the default is then read). -/
abbrev Var := Option Backend

/-- `get_backend`, `backend.py:49-59` (`default="numpy"`). -/
def read (v : Var) : Backend := v.getD .numpy

/-- Programs using the public API. -/
inductive Prog where
  | skip
  | raise
  | get
  | set (name : String)
  | seq (p q : Prog)
  | use (name : String) (body : Prog)
  | try_ (p : Prog)
  /-- a task of `parallel_map` with `n_jobs != 1`: it runs in its own copy of the caller's context -/
  | worker (p : Prog)
deriving DecidableEq, Repr

/-- Stack entries: code to run, the `finally` of a `use_backend` block holding its token (the value before the block), the end
of a try block, the end of a worker (holding the caller's context). -/
inductive Frame where
  | run (p : Prog)
  | exitUse (token : Var)
  | endTry
  | endWorker (caller : Var)

/-- State: is an exception propagating, the context variable of the current context, what `get_backend` returned so far. -/
structure State where
  raising : Bool
  var : Var
  trace : List Backend

/-- One step. -/
inductive Step (env : Env) : List Frame × State → List Frame × State → Prop
  | skip (k s) : s.raising = false → Step env (.run .skip :: k, s) (k, s)
  | raise (k s) : s.raising = false → Step env (.run .raise :: k, s) (k, { s with raising := true })
  | get (k s) : s.raising = false → Step env (.run .get :: k, s) (k, { s with trace := s.trace ++ [read s.var] })
  /-- `set_backend`, `backend.py:34-46` -/
  | set (k s name b) : s.raising = false → validate env name = some b →
      Step env (.run (.set name) :: k, s) (k, { s with var := some b })
  | setBad (k s name) : s.raising = false → validate env name = none →
      Step env (.run (.set name) :: k, s) (k, { s with raising := true })
  | seq (k s p q) : s.raising = false → Step env (.run (.seq p q) :: k, s) (.run p :: .run q :: k, s)
  /-- entering `use_backend`, `backend.py:76-79`: `token = var.set(name)` -/
  | use (k s name b body) : s.raising = false → validate env name = some b →
      Step env (.run (.use name body) :: k, s) (.run body :: .exitUse s.var :: k, { s with var := some b })
  | useBad (k s name body) : s.raising = false → validate env name = none →
      Step env (.run (.use name body) :: k, s) (k, { s with raising := true })
  /-- the `finally` clause, `backend.py:81-82`: `var.reset(token)`, whether or not an exception propagates -/
  | exitUse (k s tok) : Step env (.exitUse tok :: k, s) (k, { s with var := tok })
  | try_ (k s p) : s.raising = false → Step env (.run (.try_ p) :: k, s) (.run p :: .endTry :: k, s)
  | endTry (k s) : Step env (.endTry :: k, s) (k, { s with raising := false })
  /-- `copy_context()` and `ctx.run`, `parallel.py:44-50` -/
  | worker (k s p) : s.raising = false → Step env (.run (.worker p) :: k, s) (.run p :: .endWorker s.var :: k, s)
  /-- `future.result()`, `parallel.py:51-53`: the exception is re-raised, the caller's context is untouched -/
  | endWorker (k s v) : Step env (.endWorker v :: k, s) (k, { s with var := v })
  /-- unwinding -/
  | unwind (k s p) : s.raising = true → Step env (.run p :: k, s) (k, s)

/-- Execution. -/
abbrev Exec (env : Env) := Relation.ReflTransGen (Step env)

/-- Does the program change the backend of its own context outside every `use_backend` block? -/
def bareSet : Prog → Bool
  | .set _ => true
  | .seq p q => bareSet p || bareSet q
  | .try_ p => bareSet p
  | _ => false

/-! ### The machine is deterministic and every program terminates -/

theorem step_det {env : Env} {a b c : List Frame × State} (h1 : Step env a b) (h2 : Step env a c) : b = c := by
  cases h1 <;> cases h2 <;> simp_all

/-- Every program started on any stack gives the stack back, possibly with an exception, and keeps the trace. -/
theorem terminates (env : Env) (p : Prog) : ∀ (k : List Frame) (s : State),
    ∃ s' : State, Exec env (.run p :: k, s) (k, s') ∧ s.trace <+: s'.trace ∧
      (s.raising = true → s' = s) ∧ (bareSet p = false → s'.var = s.var) := by
  have unw : ∀ (p : Prog) (k : List Frame) (s : State), s.raising = true → Exec env (.run p :: k, s) (k, s) :=
    fun p k s h => Relation.ReflTransGen.single (Step.unwind k s p h)
  induction p with
  | skip =>
    intro k s
    refine ⟨s, ?_, List.prefix_rfl, fun _ => rfl, fun _ => rfl⟩
    cases h : s.raising
    · exact Relation.ReflTransGen.single (Step.skip k s h)
    · exact unw _ k s h
  | raise =>
    intro k s
    cases h : s.raising
    · exact ⟨_, Relation.ReflTransGen.single (Step.raise k s h), List.prefix_rfl, by simp, fun _ => rfl⟩
    · exact ⟨s, unw _ k s h, List.prefix_rfl, fun _ => rfl, fun _ => rfl⟩
  | get =>
    intro k s
    cases h : s.raising
    · exact ⟨_, Relation.ReflTransGen.single (Step.get k s h), List.prefix_append _ _, by simp, fun _ => rfl⟩
    · exact ⟨s, unw _ k s h, List.prefix_rfl, fun _ => rfl, fun _ => rfl⟩
  | set name =>
    intro k s
    cases h : s.raising
    · cases hv : validate env name with
      | some b => exact ⟨_, Relation.ReflTransGen.single (Step.set k s name b h hv), List.prefix_rfl, by simp, by simp [bareSet]⟩
      | none => exact ⟨_, Relation.ReflTransGen.single (Step.setBad k s name h hv), List.prefix_rfl, by simp, by simp [bareSet]⟩
    · exact ⟨s, unw _ k s h, List.prefix_rfl, fun _ => rfl, fun _ => rfl⟩
  | seq p q ihp ihq =>
    intro k s
    cases h : s.raising
    · obtain ⟨s1, e1, t1, _, b1⟩ := ihp (.run q :: k) s
      obtain ⟨s2, e2, t2, _, b2⟩ := ihq k s1
      refine ⟨s2, (Relation.ReflTransGen.single (Step.seq k s p q h)).trans (e1.trans e2), t1.trans t2, by simp, ?_⟩
      intro hb
      simp only [bareSet, Bool.or_eq_false_iff] at hb
      rw [b2 hb.2, b1 hb.1]
    · exact ⟨s, unw _ k s h, List.prefix_rfl, fun _ => rfl, fun _ => rfl⟩
  | use name body ih =>
    intro k s
    cases h : s.raising
    · cases hv : validate env name with
      | some b =>
        obtain ⟨s1, e1, t1, _, _⟩ := ih (.exitUse s.var :: k) { s with var := some b }
        exact ⟨{ s1 with var := s.var }, (Relation.ReflTransGen.single (Step.use k s name b body h hv)).trans
          (e1.trans (Relation.ReflTransGen.single (Step.exitUse k s1 s.var))), t1, by simp, fun _ => rfl⟩
      | none => exact ⟨_, Relation.ReflTransGen.single (Step.useBad k s name body h hv), List.prefix_rfl, by simp, fun _ => rfl⟩
    · exact ⟨s, unw _ k s h, List.prefix_rfl, fun _ => rfl, fun _ => rfl⟩
  | try_ p ih =>
    intro k s
    cases h : s.raising
    · obtain ⟨s1, e1, t1, _, b1⟩ := ih (.endTry :: k) s
      exact ⟨{ s1 with raising := false }, (Relation.ReflTransGen.single (Step.try_ k s p h)).trans
        (e1.trans (Relation.ReflTransGen.single (Step.endTry k s1))), t1, by simp, fun hb => b1 hb⟩
    · exact ⟨s, unw _ k s h, List.prefix_rfl, fun _ => rfl, fun _ => rfl⟩
  | worker p ih =>
    intro k s
    cases h : s.raising
    · obtain ⟨s1, e1, t1, _, _⟩ := ih (.endWorker s.var :: k) s
      exact ⟨{ s1 with var := s.var }, (Relation.ReflTransGen.single (Step.worker k s p h)).trans
        (e1.trans (Relation.ReflTransGen.single (Step.endWorker k s1 s.var))), t1, by simp, fun _ => rfl⟩
    · exact ⟨s, unw _ k s h, List.prefix_rfl, fun _ => rfl, fun _ => rfl⟩

/-- A run that ends with an empty stack is the only complete run. -/
theorem exec_unique {env : Env} {a : List Frame × State} {s t : State} (h1 : Exec env a ([], s)) (h2 : Exec env a ([], t)) :
    s = t := by
  have stop : ∀ s : State, ∀ c, ¬ Step env ([], s) c := by
    intro s c h; cases h
  induction h1 using Relation.ReflTransGen.head_induction_on with
  | refl =>
    rcases Relation.ReflTransGen.cases_head h2 with e | ⟨c, hc, _⟩
    · exact (Prod.mk.inj e).2
    · exact absurd hc (stop _ _)
  | head hab _ ih =>
    rcases Relation.ReflTransGen.cases_head h2 with e | ⟨c, hc, h3⟩
    · rw [e] at hab; exact absurd hab (stop _ _)
    · rw [step_det hc hab] at h3
      exact ih h3

/-- C65.  `use_backend` restores the previous backend on every exit path: whatever the block does (nested blocks, `set_backend`,
workers, exceptions), every complete run of `with use_backend(name): body` ends with the backend it started with; and such a
run exists. -/
theorem C65_use_restores (env : Env) (name : String) (body : Prog) (v : Var) :
    (∃ s', Exec env ([.run (.use name body)], ⟨false, v, []⟩) ([], s')) ∧
    ∀ s', Exec env ([.run (.use name body)], ⟨false, v, []⟩) ([], s') → s'.var = v := by
  obtain ⟨s', e, _, _, b⟩ := terminates env (.use name body) [] ⟨false, v, []⟩
  refine ⟨⟨s', e⟩, fun s h => ?_⟩
  rw [exec_unique h e]
  exact b rfl

/-- C65.  More generally any program that calls `set_backend` only inside `use_backend` blocks or worker tasks leaves the caller's
backend unchanged, on every exit path. -/
theorem C65_no_leak (env : Env) (p : Prog) (hp : bareSet p = false) (v : Var) (s' : State)
    (h : Exec env ([.run p], ⟨false, v, []⟩) ([], s')) : s'.var = v := by
  obtain ⟨s, e, _, _, b⟩ := terminates env p [] ⟨false, v, []⟩
  rw [exec_unique h e]
  exact b hp

/-- C65.  Names: exactly "numpy" and "cupy" are accepted, in any case, the latter only with CuPy and a GPU; a refused name raises
and changes nothing. -/
theorem C65_invalid_name (env : Env) (name : String) (body : Prog) (v : Var) :
    (validate env name = some .numpy ↔ name.toLower = "numpy") ∧
    (validate env name = some .cupy ↔ name.toLower = "cupy" ∧ env.hasCupy ∧ env.gpu) ∧
    (validate env name = none →
      (∀ s', Exec env ([.run (.set name)], ⟨false, v, []⟩) ([], s') → s'.var = v ∧ s'.raising = true) ∧
      ∀ s', Exec env ([.run (.use name body)], ⟨false, v, []⟩) ([], s') →
        s'.var = v ∧ s'.raising = true ∧ s'.trace = []) := by
  refine ⟨?_, ?_, ?_⟩
  · unfold validate
    by_cases h1 : name.toLower = "numpy"
    · simp [h1]
    · by_cases h2 : name.toLower = "cupy"
      · simp only [h2]; split_ifs <;> simp_all
      · simp [h1, h2]
  · unfold validate
    by_cases h1 : name.toLower = "numpy"
    · simp [h1]
    · by_cases h2 : name.toLower = "cupy"
      · cases env.hasCupy <;> cases env.gpu <;> simp [h2]
      · simp [h1, h2]
  · intro hv
    constructor
    · intro s' h
      have e : Exec env ([.run (.set name)], ⟨false, v, []⟩) ([], ⟨true, v, []⟩) :=
        Relation.ReflTransGen.single (Step.setBad [] ⟨false, v, []⟩ name rfl hv)
      rw [exec_unique h e]
      exact ⟨rfl, rfl⟩
    · intro s' h
      have e : Exec env ([.run (.use name body)], ⟨false, v, []⟩) ([], ⟨true, v, []⟩) :=
        Relation.ReflTransGen.single (Step.useBad [] ⟨false, v, []⟩ name body rfl hv)
      rw [exec_unique h e]
      exact ⟨rfl, rfl, rfl⟩

/-- C65.  Inside the block (before anything else changes it) the requested backend is active; in a worker started there too. -/
theorem C65_active_inside (env : Env) (name : String) (b : Backend) (hb : validate env name = some b) (v : Var) (rest : Prog)
    (s' : State) (h : Exec env ([.run (.use name (.seq .get (.seq (.worker .get) rest)))], ⟨false, v, []⟩) ([], s')) :
    [b, b] <+: s'.trace := by
  set k : List Frame := [.exitUse v] with hk
  have e1 : Exec env ([.run (.use name (.seq .get (.seq (.worker .get) rest)))], ⟨false, v, []⟩)
      (.run rest :: k, ⟨false, some b, [b, b]⟩) := by
    refine .head (Step.use [] ⟨false, v, []⟩ name b _ rfl hb) ?_
    refine .head (Step.seq _ ⟨false, some b, []⟩ _ _ rfl) ?_
    refine .head (Step.get _ ⟨false, some b, []⟩ rfl) ?_
    refine .head (Step.seq _ ⟨false, some b, [b]⟩ _ _ rfl) ?_
    refine .head (Step.worker _ ⟨false, some b, [b]⟩ _ rfl) ?_
    refine .head (Step.get _ ⟨false, some b, [b]⟩ rfl) ?_
    refine .head (Step.endWorker _ ⟨false, some b, [b, b]⟩ (some b)) ?_
    exact .refl
  obtain ⟨s1, e2, t2, _, _⟩ := terminates env rest k ⟨false, some b, [b, b]⟩
  have e3 : Exec env ([.run (.use name (.seq .get (.seq (.worker .get) rest)))], ⟨false, v, []⟩) ([], { s1 with var := v }) :=
    (e1.trans e2).trans (Relation.ReflTransGen.single (Step.exitUse [] s1 v))
  rw [exec_unique h e3]
  exact t2

/-- C65.  A worker cannot change the caller's backend, whatever it does. -/
theorem C65_worker_isolated (env : Env) (p : Prog) (v : Var) (s' : State)
    (h : Exec env ([.run (.worker p)], ⟨false, v, []⟩) ([], s')) : s'.var = v := C65_no_leak env (.worker p) rfl v s' h

/-- A run with nesting, a bare `set_backend`, a worker and an exception. -/
example : ∃ s', Exec ⟨true, true⟩ ([.run (.seq (.try_ (.use "CuPy" (.seq .get (.seq (.worker (.set "numpy")) (.seq (.use "numpy"
    (.seq .get .raise)) .get))))) .get)], ⟨false, none, []⟩) ([], s') ∧ s'.var = none := by
  obtain ⟨s', e, _, _, b⟩ := terminates ⟨true, true⟩ (.seq (.try_ (.use "CuPy" (.seq .get (.seq (.worker (.set "numpy"))
    (.seq (.use "numpy" (.seq .get .raise)) .get))))) .get) [] ⟨false, none, []⟩
  exact ⟨s', e, b rfl⟩

example : validate ⟨true, true⟩ "CuPy" = some .cupy ∧ validate ⟨false, true⟩ "cupy" = none ∧
    validate ⟨false, false⟩ "NUMPY" = some .numpy ∧ validate ⟨true, true⟩ "torch" = none := by decide +kernel

end Verif.Infra
