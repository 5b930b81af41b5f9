import Mathlib.Data.Rat.Floor
import Mathlib.Algebra.Order.Field.Rat
import Mathlib.Data.List.Sort
import Mathlib.Data.List.Dedup

/-!
# Model of the spline objects of `moderndid/didcont/spline`

`SplineBase` (base.py) is a mutable object: it stores the settings (x, internal knots, boundary
knots, degree), and caches three derived quantities (knot sequence, degrees of freedom, x index)
together with flags saying whether the caches are up to date.  A call is modelled as a function
from the state of the object to an optional exception *and* the state left behind: a python
setter that raises half way through leaves its earlier assignments in place.

Numbers are rationals (no rounding, no NaN).  `None` is `Option.none`.
-/

set_option linter.unusedSectionVars false

namespace Verif.Spline

/-- The exceptions raised by base.py. -/
inductive Err where
  /-- base.py:78-79 -/
  | singleX
  /-- base.py:83-84 -/
  | twoBoundary
  /-- base.py:89-92 -/
  | outside
  /-- base.py:94, `np.concatenate` of an array and `None` -/
  | noBoundaryConcat
  /-- base.py:142-143 -/
  | noBoundary
  /-- base.py:156-157 -/
  | tooShort
  /-- base.py:164-165 -/
  | identicalBoundary
  /-- base.py:154, `np.sort` of `None` -/
  | sortNone
  /-- base.py:290-291 -/
  | negativeDegree
  /-- base.py:306-307 -/
  | nonPositiveOrder
  /-- base.py:45-46 -/
  | dfNeedsX
  /-- base.py:47-48 -/
  | dfTooSmall
  deriving DecidableEq, Repr

/-- The attributes of a `SplineBase` object (base.py:23-36) once its constructor has set the
degree; `_order` is always `degree + 1`.  The surrogate knots, which nothing reads, are omitted. -/
structure State where
  x : Option (List ℚ)
  internal : List ℚ
  boundary : Option (ℚ × ℚ)
  degree : ℕ
  df : ℕ
  knots : Option (List ℚ)
  mult : Bool
  latest : Bool
  ext : Bool
  xIndex : Option (List ℕ)
  xLatest : Bool
  deriving DecidableEq, Repr

/-- `_order` (base.py:294). -/
def State.order (s : State) : ℕ := s.degree + 1

/-- `np.sort`. -/
def sortQ (l : List ℚ) : List ℚ := l.insertionSort (· ≤ ·)

/-- `np.unique`: sorted distinct values. -/
def unique (l : List ℚ) : List ℚ := (sortQ l).dedup

/-- `has_duplicates` (spline/utils.py:23-26). -/
def hasDup (l : List ℚ) : Bool := (unique l).length != l.length

/-- `is_close` (spline/utils.py:10-12): `np.allclose` with rtol 1e-9 and atol 0. -/
def isClose (a b : ℚ) : Bool := decide (|a - b| ≤ (1 / 1000000000) * |b|)

/-- `arrays_almost_equal` (spline/utils.py:15-20) for two one-dimensional arrays: arrays of equal
length are compared entrywise, an array of length one is broadcast, other lengths do not
broadcast (`ValueError`, hence `False`). -/
def almostEqual (a b : List ℚ) : Bool :=
  if a.length = b.length then (List.zipWith isClose a b).all id
  else if a.length = 1 then b.all (fun v => isClose (a.getD 0 0) v)
  else if b.length = 1 then a.all (fun v => isClose v (b.getD 0 0))
  else false

/-- `np.min` of a nonempty array (0 if empty, never used). -/
def minQ (l : List ℚ) : ℚ := (sortQ l).headD 0

/-- `np.max` of a nonempty array (0 if empty, never used). -/
def maxQ (l : List ℚ) : ℚ := (sortQ l).getLastD 0

/-- First half of `_simplify_knots` (base.py:75-85): settle the boundary knots. -/
def simplifyBoundary (s : State) (b : Option (List ℚ)) : Option Err × State :=
  match b with
  | none =>
    match s.boundary, s.x with
    | none, some x =>
      if x = [] then (none, s)
      else if isClose (minQ x) (maxQ x) then (some .singleX, s)
      else (none, { s with boundary := some (minQ x, maxQ x) })
    | _, _ => (none, s)
  | some l =>
    if (unique l).length = 2 then
      (none, { s with boundary := some ((unique l).getD 0 0, (unique l).getD 1 0) })
    else (some .twoBoundary, s)

/-- Second half of `_simplify_knots` (base.py:87-99): settle the internal knots. -/
def simplifyInternal (s : State) (ik : List ℚ) : Option Err × State :=
  if ik = [] then (none, { s with internal := [], mult := false })
  else
    match s.boundary with
    | none => (some .noBoundaryConcat, s)
    | some (lo, hi) =>
      if minQ ik ≤ lo ∨ hi ≤ maxQ ik then (some .outside, s)
      else (none, { s with internal := sortQ ik, mult := hasDup (sortQ ik ++ [lo, hi]) })

/-- `_simplify_knots` (base.py:73-99).  The boundary knots are stored before the internal knots
are checked. -/
def simplifyKnots (s : State) (ik : List ℚ) (b : Option (List ℚ)) : Option Err × State :=
  match simplifyBoundary s b with
  | (some e, s') => (some e, s')
  | (none, s') => simplifyInternal s' ik

/-- `_update_spline_df` (base.py:135-138). -/
def updateDf (s : State) : State := { s with df := s.internal.length + s.order }

/-- `_get_simple_knot_sequence` (base.py:140-150). -/
def simpleKnots (lo hi : ℚ) (internal : List ℚ) (order : ℕ) : List ℚ :=
  List.replicate order lo ++ internal ++ List.replicate order hi

/-- `_set_simple_knot_sequence` (base.py:198-201). -/
def setSimple (s : State) : Option Err × State :=
  match s.boundary with
  | none => (some .noBoundary, s)
  | some (lo, hi) =>
    (none, { s with knots := some (simpleKnots lo hi s.internal s.order), latest := true })

/-- The boundary knots read off a sorted extended sequence (base.py:161-163). -/
def extBoundary (degree : ℕ) (k : List ℚ) : ℚ × ℚ :=
  (k.getD degree 0, k.getD (k.length - (degree + 1)) 0)

/-- The internal knots read off a sorted extended sequence (base.py:168-175). -/
def extInternal (degree : ℕ) (k : List ℚ) : List ℚ :=
  (k.drop (degree + 1)).take (k.length - 2 * (degree + 1))

/-- `_has_internal_multiplicity` for an extended sequence (base.py:169-176). -/
def extMult (degree : ℕ) (k : List ℚ) : Bool :=
  if k.length - 2 * (degree + 1) = 0 then false
  else hasDup (extInternal degree k ++ [(extBoundary degree k).1, (extBoundary degree k).2])

/-- `_is_extended_knot_sequence` (base.py:181-185). -/
def extFlag (degree : ℕ) (k : List ℚ) : Bool :=
  !isClose (extBoundary degree k).1 (k.getD 0 0) ||
  !isClose (extBoundary degree k).2 (k.getD (k.length - 1) 0) ||
  extMult degree k

/-- `_set_extended_knot_sequence` (base.py:152-187) for a given array. The sequence is stored before
the check that its boundary knots differ. -/
def setExtended (s : State) (seq : List ℚ) : Option Err × State :=
  if (sortQ seq).length < 2 * s.order then (some .tooShort, s)
  else if isClose (extBoundary s.degree (sortQ seq)).1 (extBoundary s.degree (sortQ seq)).2 then
    (some .identicalBoundary, { s with knots := some (sortQ seq) })
  else
    (none, { s with
      knots := some (sortQ seq)
      boundary := some (extBoundary s.degree (sortQ seq))
      internal := extInternal s.degree (sortQ seq)
      mult := extMult s.degree (sortQ seq)
      ext := extFlag s.degree (sortQ seq)
      latest := true })

/-- `_update_knot_sequence` (base.py:189-196). -/
def updateKnots (s : State) : Option Err × State :=
  if s.latest ∧ s.knots ≠ none then (none, s)
  else if s.ext then
    match s.knots with
    | none => (some .sortNone, s)
    | some k => setExtended s k
  else setSimple s

/-- `np.searchsorted(internal, x, side="right")` on a sorted array: the number of knots at or
below `v`. -/
def searchRight (internal : List ℚ) (v : ℚ) : ℕ := (internal.takeWhile (fun k => decide (k ≤ v))).length

/-- `_update_x_index` (base.py:203-211). -/
def updateXIndex (s : State) : State :=
  match s.x with
  | none => { s with xIndex := none, xLatest := false }
  | some x => { s with xIndex := some (x.map (searchRight s.internal)), xLatest := true }

/-- State left by `get_knot_sequence` (base.py:225-229) and the exception it may raise. -/
def getKnots (s : State) : Option Err × State :=
  if s.latest then (none, s) else updateKnots s

/-- Value returned by `get_knot_sequence` (base.py:225-229): `Except.error` if it raises. -/
def knotSequence (s : State) : Except Err (Option (List ℚ)) :=
  match getKnots s with
  | (some e, _) => .error e
  | (none, s') => .ok s'.knots

/-- State left by `get_x_index` (base.py:243-247). -/
def getXIndex (s : State) : State := if s.xLatest then s else updateXIndex s

/-- Value returned by `get_x_index` (base.py:243-247). -/
def xIndexOf (s : State) : Option (List ℕ) := (getXIndex s).xIndex

/-- `set_x` (base.py:249-252). -/
def setX (s : State) (x : List ℚ) : Option Err × State :=
  (none, { s with x := some x, xLatest := false })

/-- The stored boundary knots as an array. -/
def boundaryList (s : State) : Option (List ℚ) := s.boundary.map (fun p => [p.1, p.2])

/-- `set_internal_knots` (base.py:254-261). -/
def setInternal (s : State) (k : Option (List ℚ)) : Option Err × State :=
  if s.internal = k.getD [] then (none, s)
  else
    match simplifyKnots s (k.getD []) (boundaryList s) with
    | (some e, s') => (some e, s')
    | (none, s') => (none, { updateDf s' with latest := false, xLatest := false })

/-- `set_boundary_knots` (base.py:263-269). -/
def setBoundary (s : State) (b : Option (List ℚ)) : Option Err × State :=
  if boundaryList s = b then (none, s)
  else
    match simplifyKnots s s.internal b with
    | (some e, s') => (some e, s')
    | (none, s') => (none, { s' with latest := false, xLatest := false })

/-- `set_knot_sequence` (base.py:271-284). -/
def setKnots (s : State) (seq : Option (List ℚ)) : Option Err × State :=
  match seq with
  | none => (none, { s with knots := none, latest := false, xLatest := false })
  | some q =>
    if (s.knots.elim false (fun k => almostEqual k q)) then (none, s)
    else
      match setExtended s q with
      | (some e, s') => (some e, s')
      | (none, s') => (none, { updateDf s' with xLatest := false })

/-- `set_degree` (base.py:286-302). -/
def setDegree (s : State) (d : ℤ) : Option Err × State :=
  if (s.degree : ℤ) = d then (none, s)
  else if d < 0 then (some .negativeDegree, s)
  else if s.ext then
    match s.knots with
    | some k =>
      match setExtended { s with degree := d.toNat } k with
      | (some e, s') => (some e, s')
      | (none, s') => (none, { updateDf s' with xLatest := false })
    | none => (none, { updateDf { s with degree := d.toNat, latest := false } with xLatest := false })
  else (none, { updateDf { s with degree := d.toNat, latest := false } with xLatest := false })

/-- `set_order` (base.py:304-308). -/
def setOrder (s : State) (o : ℤ) : Option Err × State :=
  if o < 1 then (some .nonPositiveOrder, s) else setDegree s (o - 1)

/-- State of the object after base.py:23-40: x stored, degree stored, nothing else. -/
def blank (x : Option (List ℚ)) (degree : ℕ) : State :=
  { x := x, internal := [], boundary := none, degree := degree, df := degree + 1, knots := none,
    mult := false, latest := false, ext := false, xIndex := none, xLatest := false }

/-- `linspace_interior` (spline/utils.py:70-77). -/
def linspaceInterior (a b : ℚ) (n : ℕ) : List ℚ :=
  (List.range n).map (fun i : ℕ => a + (b - a) * ((i : ℚ) + 1) / ((n : ℚ) + 1))

/-- `np.quantile(x, p, method="linear")` (spline/utils.py:48-49) on the sorted values. -/
def quantile (xs : List ℚ) (p : ℚ) : ℚ :=
  let h : ℚ := ((xs.length : ℚ) - 1) * p
  let i : ℕ := ⌊h⌋.toNat
  let lo := xs.getD i 0
  let hi := xs.getD (min (i + 1) (xs.length - 1)) 0
  lo + (h - (i : ℚ)) * (hi - lo)

/-- `compute_quantiles(x_inside, np.linspace(0, 1, n + 2)[1:-1])` (base.py:116-117). -/
def quantileKnots (x : List ℚ) (n : ℕ) : List ℚ :=
  (linspaceInterior 0 1 n).map (quantile (sortQ x))

/-- `_generate_default_internal_knots` (base.py:101-133) for `n` knots inside `lo, hi`; warnings
are not modelled. -/
def defaultInternal (x : List ℚ) (lo hi : ℚ) (n : ℕ) : List ℚ :=
  let inside := x.filter (fun v => decide (lo ≤ v) && decide (v ≤ hi))
  if n = 0 then []
  else if inside = [] then []
  else
    let ks := quantileKnots inside n
    if hasDup ks then linspaceInterior lo hi n
    else if minQ ks ≤ lo ∨ hi ≤ maxQ ks then linspaceInterior lo hi n
    else ks

/-- Constructor branch `df is not None` (base.py:44-64). -/
def initDf (s : State) (boundary : Option (List ℚ)) (df : ℕ) : Option Err × State :=
  match s.x with
  | none => (some .dfNeedsX, s)
  | some x =>
    if df < s.order then (some .dfTooSmall, s)
    else
      match simplifyKnots { s with df := df } [] boundary with
      | (some e, s') => (some e, s')
      | (none, s') =>
        match s'.boundary with
        | none => updateKnots s'
        | some (lo, hi) =>
          let ik := defaultInternal x lo hi (df - s.order)
          updateKnots { s' with
            internal := ik
            mult := if df - s.order = 0 then false else hasDup (ik ++ [lo, hi]) }

/-- The constructor (base.py:21-71). -/
def init (x : Option (List ℚ)) (internal boundary knotSeq : Option (List ℚ)) (degree : ℤ)
    (df : Option ℕ) : Option Err × State :=
  let s := blank x degree.toNat
  if degree < 0 then (some .negativeDegree, s)
  else
    match knotSeq with
    | some q => setKnots s (some q)
    | none =>
      match df with
      | some d => initDf s boundary d
      | none =>
        match internal with
        | some ik =>
          match simplifyKnots s ik boundary with
          | (some e, s') => (some e, s')
          | (none, s') => updateKnots (updateDf s')
        | none =>
          match simplifyKnots s [] boundary with
          | (some e, s') => (some e, s')
          | (none, s') => (none, updateDf s')

/-- One method call on the object. -/
inductive Op where
  | setX (x : List ℚ)
  | setInternal (k : Option (List ℚ))
  | setBoundary (b : Option (List ℚ))
  | setKnots (q : Option (List ℚ))
  | setDegree (d : ℤ)
  | setOrder (o : ℤ)
  | getKnots
  | getXIndex

/-- The effect of a call (base.py:225-308). -/
def step (s : State) : Op → Option Err × State
  | .setX x => setX s x
  | .setInternal k => setInternal s k
  | .setBoundary b => setBoundary s b
  | .setKnots q => setKnots s q
  | .setDegree d => setDegree s d
  | .setOrder o => setOrder s o
  | .getKnots => getKnots s
  | .getXIndex => (none, getXIndex s)

/-- Number of columns of `BSpline.basis(complete_basis=True)` (bspline.py:99-106) when the knot
sequence is available: scipy's design matrix has `len(knots) - degree - 1` columns, and an
"extended" object keeps the columns `degree : ncol - degree`. -/
def basisCols (s : State) : Except Err ℕ :=
  match updateKnots s with
  | (some e, _) => .error e
  | (none, s') =>
    let n := (s'.knots.getD []).length - s'.degree - 1
    .ok (if s'.ext then n - s'.degree - s'.degree else n)

end Verif.Spline
