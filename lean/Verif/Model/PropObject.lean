import Verif.Model.Signal
/-!
# The propagator as an object (`simulator/fiber/assets/propagator.py`)

`Prop_` of `Model/Signal` is a propagator that nobody assigns to.  Here are its attributes, what an assignment to each of them does, also when it
fails half-way, and what the sources take from them.  Exact reals; not covered: floats that are infinite or not a number, numpy arrays given as
`n_samples`, `window_t` or `central_wl`, entries of the arrays changed in place, and assignments to `wl`, which is a plain attribute.
-/

namespace Verif

/-- A numpy array: shape and entries in row-major order. `simulator/fiber/assets/propagator.py:87-97`. -/
structure NdArr where
  shape : List Nat
  data : List ℂ

/-- What can be assigned: integers (of Python or numpy, also booleans), floats, arrays (of type `np.ndarray` itself), and everything else (`None`,
lists, strings, …). `simulator/fiber/assets/propagator.py:41-57`. -/
inductive SetArg where
  | int (z : ℤ)
  | float (x : ℝ)
  | array (a : NdArr)
  | other

/-- A number in an arithmetic expression; `None` and the like raise `TypeError`. `simulator/fiber/assets/propagator.py:87-97`. -/
noncomputable def SetArg.number : SetArg → Except Err ℝ
  | .int z => .ok z
  | .float x => .ok x
  | _ => .error .typeError

/-- `operator.index`, which `np.linspace` applies to `num`, and the test there that it is not negative.
`simulator/fiber/assets/propagator.py:87-97`. -/
def SetArg.count : SetArg → Except Err Nat
  | .int z => if z < 0 then .error .valueError else .ok z.toNat
  | _ => .error .typeError

/-- `type(x)` as far as the setter of `window_t` asks. `simulator/fiber/assets/propagator.py:53`. -/
def SetArg.ty : SetArg → Prop_.PyType
  | .int _ => .int
  | .float _ => .float
  | _ => .other

/-- `np.linspace(lo, hi, n)` with its special cases: below two points the step is not a number, and from two points on the last entry is set to `hi`.
`simulator/fiber/assets/propagator.py:87-97`. -/
noncomputable def npLinspace (lo hi : ℝ) (n : Nat) : List ℝ × Option ℝ :=
  if n ≤ 1 then ((List.range n).map (fun j : Nat => lo + j * (hi - lo)), none)
  else ((List.range n).map (fun j : Nat => if j = n - 1 then hi else lo + j * ((hi - lo) / ((n : ℝ) - 1))), some ((hi - lo) / ((n : ℝ) - 1)))

/-- `_t`, `_f`, `_dt`, `_df`; both arrays have the shape `(len, 1)`. `simulator/fiber/assets/propagator.py:87-97`. -/
structure PropAxes where
  t : List ℝ
  f : List ℝ
  dt : Option ℝ
  df : Option ℝ

/-- `_generate_time_frequency_arrays` (lines 87-97): all four are assigned at the end, in one statement. -/
noncomputable def makeAxes (n : SetArg) (window : ℝ) : Except Err PropAxes :=
  match n.count with
  | .error e => .error e
  | .ok k =>
    let t := npLinspace (-window / 2) (window / 2) k
    if window = 0 then .error .zeroDivision
    else
      let f := npLinspace (-k / window / 2) (k / window / 2) k
      .ok ⟨t.1, f.1, t.2, f.2⟩

/-- The attributes of a propagator. `simulator/fiber/assets/propagator.py:14-24`. -/
structure PropObj where
  nSamples : SetArg
  window : ℝ
  centralWl : ℝ
  centralFrequency : ℝ
  axes : PropAxes
  /-- `none` where the frequency is zero (numpy gives infinity). -/
  wl : List (Option ℝ)
  state : NdArr

/-- `Propagator(n_samples, window_t, central_wl)` (lines 14-24). -/
noncomputable def newPropagator (n window wl : SetArg) : Except Err PropObj :=
  match wl.number with
  | .error e => .error e
  | .ok l =>
    if l = 0 then .error .zeroDivision
    else
      match window.number with
      | .error e => .error e
      | .ok w =>
        match makeAxes n w with
        | .error e => .error e
        | .ok a =>
          .ok ⟨n, w, l, lightSpeed / l, a, a.f.map (fun x => if lightSpeed / l + x = 0 then none else some (lightSpeed / (lightSpeed / l + x))),
            ⟨[a.t.length, 1], List.replicate a.t.length 0⟩⟩

/-- The properties without a setter (lines 59-85). -/
inductive FixedAttr where
  | central_wl | central_frequency | speed_of_light | t | f | dt | df
deriving DecidableEq, Repr

/-- An assignment `propagator.x = v`. `simulator/fiber/assets/propagator.py:41-57`. -/
inductive PropSet where
  | samples (v : SetArg)
  | window (v : SetArg)
  | state (v : SetArg)
  | fixed (a : FixedAttr) (v : SetArg)

/-- What the assignment leaves and the exception it raises (lines 30-35, 41-45, 51-57; a property without a setter raises `AttributeError`). -/
noncomputable def PropObj.assign (p : PropObj) : PropSet → PropObj × Option Err
  | .samples v =>
    let q := { p with nSamples := v }
    match makeAxes v q.window with
    | .error e => (q, some e)
    | .ok a => ({ q with axes := a }, none)
  | .window v =>
    if Prop_.PyObj.type v.ty ∉ [Prop_.PyObj.str "float", Prop_.PyObj.str "int"] then (p, some .valueError)
    else
      match v.number with
      | .error e => (p, some e)
      | .ok w =>
        let q := { p with window := w }
        match makeAxes q.nSamples w with
        | .error e => (q, some e)
        | .ok a => ({ q with axes := a }, none)
  | .state v =>
    match v with
    | .array a => ({ p with state := a }, none)
    | _ => (p, some .typeError)
  | .fixed _ _ => (p, some .attributeError)

/-- A series of assignments, each in a `try`. `simulator/fiber/assets/propagator.py:41-57`. -/
noncomputable def PropObj.assignAll (p : PropObj) : List PropSet → PropObj × List (Option Err)
  | [] => (p, [])
  | s :: ss =>
    let r := p.assign s
    let q := r.1.assignAll ss
    (q.1, r.2 :: q.2)

/-- The sources (`simulator/fiber/node_types_subclasses/inputs.py`). -/
inductive SourceKind where
  | pulsed | cw | noisy | impulse
deriving DecidableEq, Repr

/-- The shape of what a source at the start of a design sends out.  A node without predecessors gets `propagator.state` (`lib/graph.py:305-306`) and hands it on
(`simulator/fiber/node_types.py:109-110`); the continuous-wave laser takes `np.ones_like` of it (`inputs.py:111-114`), the impulse too, and transforms it along
its first axis (lines 230-232); the pulsed laser and the noisy signal start from `propagator.t` (lines 74-78, 191-200). -/
def sourceShape (p : PropObj) : SourceKind → Except Err (List Nat)
  | .pulsed => .ok [p.axes.t.length, 1]
  | .noisy => .ok [p.axes.t.length, 1]
  | .cw => .ok p.state.shape
  | .impulse =>
    match p.state.shape with
    | [] => .error .indexError
    | 0 :: _ => .error .valueError
    | s => .ok s

/-- Broadcasting of two shapes written from the last axis to the first.
`simulator/fiber/node_types_subclasses/single_path.py:120-241`. -/
def broadcastRev : List Nat → List Nat → Except Err (List Nat)
  | [], ys => .ok ys
  | xs, [] => .ok xs
  | x :: xs, y :: ys =>
    if x = y ∨ y = 1 then (broadcastRev xs ys).map (x :: ·)
    else if x = 1 then (broadcastRev xs ys).map (y :: ·)
    else .error .valueError

/-- The shape of `state * transform` for an array `transform` over the times, as in the modulators
(`simulator/fiber/node_types_subclasses/single_path.py:179-185`, `231-237`). -/
def modulatedShape (p : PropObj) (shape : List Nat) : Except Err (List Nat) :=
  (broadcastRev shape.reverse [1, p.axes.t.length]).map List.reverse

/-- A source followed by a modulator.
`simulator/fiber/node_types_subclasses/inputs.py:18-120`, `simulator/fiber/node_types_subclasses/single_path.py:120-241`. -/
def sentShape (p : PropObj) (k : SourceKind) : Except Err (List Nat) :=
  match sourceShape p k with
  | .error e => .error e
  | .ok s => modulatedShape p s

end Verif
