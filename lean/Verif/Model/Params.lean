import Verif.Model.Graph
import Mathlib.Data.Rat.Floor
/-!
# Model of parameter lists (`lib/graph.py:122-135,483-573,601-642`, `lib/base_classes.py:15-78`)

Component objects live in a heap; the graph refers to them by object identity (`Comp.uid`).  Numbers are rationals
(`Num`), since nothing here depends on rounding of floats.  Two objects do not share one parameter list object.
-/

namespace Verif
open Graph

/-- Object identity of a component. Part of the model of `lib/graph.py:122-135,483-573,601-642`, `lib/base_classes.py:15-78`. -/
abbrev ModelId := Nat

/-- The strings in `data_types`. Part of the model of `lib/graph.py:122-135,483-573,601-642`, `lib/base_classes.py:15-78`. -/
inductive DType where
  | float | int | other
deriving DecidableEq, Repr

/-- The attributes of a component that are lists with one entry per parameter (`lib/base_classes.py`,
component classes): `parameters`, `lower_bounds`, `upper_bounds`, `data_types`, `step_sizes`, `parameter_locks`, and the
flag `node_lock`. -/
structure PModel where
  params : List ℚ
  lower : List ℚ
  upper : List ℚ
  dtypes : List DType
  steps : List (Option ℚ)
  locks : List Bool
  nodeLock : Bool
deriving DecidableEq, Repr

/-- Part of the model of `lib/graph.py:122-135,483-573,601-642`, `lib/base_classes.py:15-78`. -/
abbrev Heap := ModelId → PModel

/-- Entries of attribute lists. Part of the model of `lib/graph.py:122-135,483-573,601-642`, `lib/base_classes.py:15-78`. -/
inductive Val where
  | num (x : ℚ)
  | dtype (d : DType)
  | step (s : Option ℚ)
deriving DecidableEq, Repr

/-- The attribute names used with `extract_attributes_to_list_experimental`. `lib/graph.py:525-550`. -/
inductive Attr where
  | parameters | lowerBounds | upperBounds | dataTypes | stepSizes
deriving DecidableEq, Repr

/-- `getattr(model, attribute)`. Part of the model of `lib/graph.py:122-135,483-573,601-642`, `lib/base_classes.py:15-78`. -/
def PModel.attr (m : PModel) : Attr → List Val
  | .parameters => m.params.map .num
  | .lowerBounds => m.lower.map .num
  | .upperBounds => m.upper.map .num
  | .dataTypes => m.dtypes.map .dtype
  | .stepSizes => m.steps.map .step

/-- `get_models` (`lib/graph.py:520-523`). -/
def getModels (g : Graph) : List ModelId := g.nodes.map (·.comp.uid) ++ g.edges.map (·.comp.uid)

/-- The dictionary filled by the extraction: one list per attribute, plus `models` and `parameter_index`.
Part of the model of `lib/graph.py:122-135,483-573,601-642`, `lib/base_classes.py:15-78`. -/
structure Extracted where
  cols : List (List Val)
  models : List ModelId
  index : List Nat
deriving DecidableEq, Repr

/-- Lines 542-543: append entry `i` of every attribute to its list. -/
def pushRow (m : PModel) (i : Nat) : List Attr → List (List Val) → Except Err (List (List Val))
  | [], cols => .ok cols
  | a :: as, cols =>
    match (m.attr a)[i]?, cols with
    | none, _ => .error .indexError
    | some _, [] => .error .keyError
    | some x, c :: cs =>
      match pushRow m i as cs with
      | .error e => .error e
      | .ok cs' => .ok ((c ++ [x]) :: cs')

/-- Lines 540-548: loop over `enumerate(parameter_locks)` from index `i` on. -/
def lockLoop (as : List Attr) (m : PModel) (mid : ModelId) : Nat → List Bool → Extracted → Except Err Extracted
  | _, [], acc => .ok acc
  | i, l :: ls, acc =>
    if l then lockLoop as m mid (i + 1) ls acc
    else
      match pushRow m i as acc.cols with
      | .error e => .error e
      | .ok cols => lockLoop as m mid (i + 1) ls ⟨cols, acc.models ++ [mid], acc.index ++ [i]⟩

/-- Lines 538-549: loop over the models. -/
def modelLoop (as : List Attr) (h : Heap) : List ModelId → Extracted → Except Err Extracted
  | [], acc => .ok acc
  | mid :: ms, acc =>
    if (h mid).nodeLock then modelLoop as h ms acc
    else
      match lockLoop as (h mid) mid 0 (h mid).locks acc with
      | .error e => .error e
      | .ok acc' => modelLoop as h ms acc'

/-- `extract_attributes_to_list_experimental` (lines 525-550).  `exclude_locked` is ignored by the code; the optional
location lists are always kept here. -/
def extract (as : List Attr) (g : Graph) (h : Heap) : Except Err Extracted :=
  modelLoop as h (getModels g) ⟨as.map (fun _ => []), [], []⟩

/-- `model.parameters[ind] = x` (`IndexError` when out of range).
Part of the model of `lib/graph.py:122-135,483-573,601-642`, `lib/base_classes.py:15-78`. -/
def setParam (h : Heap) (mid : ModelId) (i : Nat) (x : ℚ) : Except Err Heap :=
  if i < (h mid).params.length then
    .ok (fun m => if m = mid then { h mid with params := (h mid).params.set i x } else h m)
  else .error .indexError

/-- `distribute_parameters_from_list` (lines 569-573); `zip` stops at the shortest list. -/
def distribute (h : Heap) : List ℚ → List ModelId → List Nat → Except Err Heap
  | x :: xs, m :: ms, i :: is =>
    match setParam h m i x with
    | .error e => .error e
    | .ok h' => distribute h' xs ms is
  | _, _, _ => .ok h

/-- The function built by `function_wrapper` (lines 122-135): locations are extracted once, each call distributes the
argument, propagates and evaluates.  `eval` is propagation plus evaluation, any function of the components. -/
def objective (g : Graph) (h0 : Heap) (eval : Heap → Except Err ℚ) (h : Heap) (x : List ℚ) : Heap × Except Err ℚ :=
  match extract [] g h0 with
  | .error e => (h, .error e)
  | .ok ex =>
    match distribute h x ex.models ex.index with
    | .error e => (h, .error e)
    | .ok h' => (h', eval h')

/-! ### Sampling (lines 483-507, 601-642) -/

/-- Randomness of one sample: `u` in [0,1) for `np.random.uniform`, `n` for `np.random.randint`.
Part of the model of `lib/graph.py:122-135,483-573,601-642`, `lib/base_classes.py:15-78`. -/
structure Rnd where
  u : ℚ
  n : Nat

/-- Python's `round`: nearest integer, ties to even.
Part of the model of `lib/graph.py:122-135,483-573,601-642`, `lib/base_classes.py:15-78`. -/
def pyRound (x : ℚ) : ℤ :=
  let f := ⌊x⌋
  if x - f < 1 / 2 then f
  else if 1 / 2 < x - f then f + 1
  else if f % 2 = 0 then f else f + 1

/-- Conversion of a number to an integer argument (towards zero).
Part of the model of `lib/graph.py:122-135,483-573,601-642`, `lib/base_classes.py:15-78`. -/
def pyInt (x : ℚ) : ℤ := if 0 ≤ x then ⌊x⌋ else ⌈x⌉

/-- `np.random.randint(lo, hi)`: an integer in `[lo, hi)`; `ValueError` when there is none.
Part of the model of `lib/graph.py:122-135,483-573,601-642`, `lib/base_classes.py:15-78`. -/
def randint (lo hi : ℤ) (n : Nat) : Except Err ℤ :=
  if lo < hi then .ok (lo + (n : ℤ) % (hi - lo)) else .error .valueError

/-- `uniform_sample` (lines 629-642); `np.random.uniform(low, up) = low + (up - low) * u`. -/
def uniformSample (low up : ℚ) (step : Option ℚ) (dt : DType) (r : Rnd) : Except Err ℚ :=
  match dt with
  | .float =>
    match step with
    | none => .ok (low + (up - low) * r.u)
    | some s => if s = 0 then .error .zeroDivision else .ok (pyRound ((low + (up - low) * r.u) / s) * s)
  | .int =>
    match step with
    | none =>
      match randint (pyInt low) (pyInt up) r.n with
      | .error e => .error e
      | .ok k => .ok k
    | some s =>
      if s = 0 then .error .zeroDivision
      else
        match randint (pyInt (low / s)) (pyInt (up / s)) r.n with
        | .error e => .error e
        | .ok k => .ok (k * s)
  | .other => .error .valueError

/-- The `probability_dist` argument; anything that is neither name falls back to uniform with a warning.
Part of the model of `lib/graph.py:122-135,483-573,601-642`, `lib/base_classes.py:15-78`. -/
inductive Dist where
  | uniform | triangle | other
deriving DecidableEq, Repr

/-- One round of the loop of `sample_parameters_callable` (lines 605-616).  The triangle branch passes the keyword
`interval_width`, which `triangle_sample` does not have: a `TypeError` before anything is sampled. -/
def sampleOne (dist : Dist) (low up : ℚ) (step : Option ℚ) (dt : DType) (r : Rnd) : Except Err ℚ :=
  match dist with
  | .uniform => uniformSample low up step dt r
  | .triangle => .error .typeError
  | .other => uniformSample low up step dt r

/-- `sample_parameters_callable` (lines 601-617); `zip` of five lists. -/
def sampleAll (dist : Dist) (r : Nat → Rnd) : Nat → List Val → List Val → List Val → List Val → List Val →
    Except Err (List ℚ)
  | j, .num _ :: ps, .num lo :: ls, .num up :: us, .dtype d :: ds, .step s :: ss =>
    match sampleOne dist lo up s d (r j) with
    | .error e => .error e
    | .ok x =>
      match sampleAll dist r (j + 1) ps ls us ds ss with
      | .error e => .error e
      | .ok xs => .ok (x :: xs)
  | _, _, _, _, _, _ => .ok []

/-- `sample_parameters` (lines 483-494). -/
def sampleParameters (g : Graph) (dist : Dist) (r : Nat → Rnd) (h : Heap) : Except Err Heap :=
  match extract [.parameters, .lowerBounds, .upperBounds, .dataTypes, .stepSizes] g h with
  | .error e => .error e
  | .ok ex =>
    match ex.cols with
    | [ps, ls, us, ds, ss] =>
      match sampleAll dist r 0 ps ls us ds ss with
      | .error e => .error e
      | .ok xs => distribute h xs ex.models ex.index
    | _ => .error .keyError

/-! ### Parameters by name (`lib/base_classes.py:15-33,63-74`) -/

/-- A component object: `parameter_names` and its parameter list.  `shared` says that `_parameters` and
`default_parameters` are the same list object, in which case `defaults` is not looked at.
Part of the model of `lib/base_classes.py:15-33,63-74`. -/
structure Named (V : Type) where
  names : List String
  cur : List V
  defaults : List V
  shared : Bool

/-- What `obj.default_parameters` shows. Part of the model of `lib/base_classes.py:15-33,63-74`. -/
def Named.defaultParameters {V : Type} (o : Named V) : List V := if o.shared then o.cur else o.defaults

/-- `list.index`. Part of the model of `lib/base_classes.py:15-33,63-74`. -/
def indexOf (names : List String) (n : String) : Except Err Nat :=
  if n ∈ names then .ok (names.idxOf n) else .error .valueError

/-- `set_parameter_from_name` (lines 68-74). -/
def Named.set {V : Type} (o : Named V) (n : String) (v : V) : Except Err (Named V) :=
  match indexOf o.names n with
  | .error e => .error e
  | .ok i => if i < o.cur.length then .ok { o with cur := o.cur.set i v } else .error .indexError

/-- `get_parameter_from_name` (lines 63-65). -/
def Named.get {V : Type} (o : Named V) (n : String) : Except Err V :=
  match indexOf o.names n with
  | .error e => .error e
  | .ok i => match o.cur[i]? with
    | none => .error .indexError
    | some v => .ok v

/-- Loop over `kwargs['parameters_from_name'].items()` (lines 25-26). -/
def Named.setAll {V : Type} : Named V → List (String × V) → Except Err (Named V)
  | o, [] => .ok o
  | o, (n, v) :: kvs =>
    match o.set n v with
    | .error e => .error e
    | .ok o' => o'.setAll kvs

/-- Keyword arguments of the constructor. Part of the model of `lib/base_classes.py:15-33,63-74`. -/
inductive CtorArg (V : Type) where
  | none
  | parameters (ps : List V)
  | fromName (kvs : List (String × V))

/-- `NodeType.__init__` (lines 15-29) for a class with the given names and defaults. -/
def Named.init {V : Type} (names : List String) (dflt : List V) : CtorArg V → Except Err (Named V)
  | .none => .ok ⟨names, dflt, dflt, true⟩
  | .parameters ps => .ok ⟨names, ps, dflt, false⟩
  | .fromName kvs => Named.setAll ⟨names, dflt, dflt, true⟩ kvs

end Verif
