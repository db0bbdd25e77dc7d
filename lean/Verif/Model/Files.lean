/-! # Model of saving and loading

Saving and loading (`lib/functions.py:86-242`, `InputOutput`), and the files which a topology optimization leaves
(`algorithms/topology_optimization.py:31-160`).

The disk is a POSIX one without links: what is at each absolute path.  Paths are lists of names.  Not modelled: `..` (left to the operating system
by `pathlib`), permissions, full disks, drive letters, other programs writing at the same time, the printed messages of `verbose`.
-/

namespace Verif

/-- One component of a path. Part of the model of `lib/functions.py:86-242`, `algorithms/topology_optimization.py:31-160`. -/
abbrev FName := List Char

/-- What is found at a path: a directory, or a file with its bytes.
Part of the model of `lib/functions.py:86-242`, `algorithms/topology_optimization.py:31-160`. -/
inductive DiskEntry (B : Type) where
  | dir
  | file (bytes : B)
deriving DecidableEq, Repr

/-- The disk, by absolute path; `[]` is the root.
Part of the model of `lib/functions.py:86-242`, `algorithms/topology_optimization.py:31-160`. -/
abbrev Disk (B : Type) := List FName → Option (DiskEntry B)

/-- The exceptions met: `FileNotFoundError`, `FileExistsError`, `IsADirectoryError`, `NotADirectoryError`, `AttributeError`, `TypeError`, and whatever
`dill` or `json` raises. Part of the model of `lib/functions.py:86-242`, `algorithms/topology_optimization.py:31-160`. -/
inductive IoErr where
  | notFound | exists_ | isDir | notDir | attribute | type | coding
deriving DecidableEq, Repr

/-! ### Paths (`pathlib`, `os.path.isabs`) -/

/-- A string cut at `/`. Part of the model of `lib/functions.py:86-242`, `algorithms/topology_optimization.py:31-160`. -/
def splitSlash : List Char → List FName
  | [] => [[]]
  | c :: s =>
    if c = '/' then [] :: splitSlash s
    else match splitSlash s with
      | [] => [[c]]
      | h :: t => (c :: h) :: t

/-- The components of `Path(s)`: empty ones and `.` are dropped.
Part of the model of `lib/functions.py:86-242`, `algorithms/topology_optimization.py:31-160`. -/
def pathParts (s : List Char) : List FName := (splitSlash s).filter (fun n => n ≠ [] ∧ n ≠ ['.'])

/-- `os.path.isabs`. Part of the model of `lib/functions.py:86-242`, `algorithms/topology_optimization.py:31-160`. -/
def isAbs (s : List Char) : Bool := s.head? == some '/'

/-- A `Path`. Part of the model of `lib/functions.py:86-242`, `algorithms/topology_optimization.py:31-160`. -/
structure PyPath where
  abs : Bool
  parts : List FName
deriving DecidableEq, Repr

/-- `Path(s)`. Part of the model of `lib/functions.py:86-242`, `algorithms/topology_optimization.py:31-160`. -/
def PyPath.ofStr (s : List Char) : PyPath := ⟨isAbs s, pathParts s⟩

/-- `p.joinpath(q)` for an absolute `p`: an absolute `q` takes its place.
Part of the model of `lib/functions.py:86-242`, `algorithms/topology_optimization.py:31-160`. -/
def joinTo (p : List FName) (q : PyPath) : List FName := if q.abs then q.parts else p ++ q.parts

/-- An argument naming a file: a string or a `Path`.
Part of the model of `lib/functions.py:86-242`, `algorithms/topology_optimization.py:31-160`. -/
inductive PyArg where
  | str (s : List Char)
  | path (p : PyPath)
deriving DecidableEq, Repr

/-- The path meant by an argument. Part of the model of `lib/functions.py:86-242`, `algorithms/topology_optimization.py:31-160`. -/
def PyArg.toPath : PyArg → PyPath
  | .str s => .ofStr s
  | .path p => p

/-! ### The operating system -/

section
variable {O D B : Type}

/-- Walking to `pre ++ rest`: every proper prefix from `pre` on must be a directory.
Part of the model of `lib/functions.py:86-242`, `algorithms/topology_optimization.py:31-160`. -/
def reach (d : Disk B) : List FName → List FName → Except IoErr Unit
  | _, [] => .ok ()
  | pre, n :: rest =>
    match d pre with
    | some .dir => reach d (pre ++ [n]) rest
    | some (.file _) => .error .notDir
    | none => .error .notFound

/-- The disk with something put at a path.
Part of the model of `lib/functions.py:86-242`, `algorithms/topology_optimization.py:31-160`. -/
def Disk.put (d : Disk B) (p : List FName) (e : DiskEntry B) : Disk B := fun q => if q = p then some e else d q

/-- `os.mkdir`, with `exist_ok=True` handled as in `Path.mkdir`.
Part of the model of `lib/functions.py:86-242`, `algorithms/topology_optimization.py:31-160`. -/
def osMkdir (d : Disk B) (p : List FName) : Except IoErr (Disk B) :=
  match reach d [] p with
  | .error e => .error e
  | .ok () =>
    match d p with
    | none => .ok (d.put p .dir)
    | some .dir => .ok d
    | some (.file _) => .error .exists_

/-- `Path.mkdir(parents=True, exist_ok=True)`, the path given from its last component on: where the parent is missing it is made first.
Part of the model of `lib/functions.py:86-242`, `algorithms/topology_optimization.py:31-160`. -/
def mkdirsRev (d : Disk B) : List FName → Except IoErr (Disk B)
  | [] => .ok d
  | n :: up =>
    match osMkdir d (n :: up).reverse with
    | .error .notFound =>
      match mkdirsRev d up with
      | .error e => .error e
      | .ok d' => osMkdir d' (n :: up).reverse
    | r => r

/-- `p.mkdir(parents=True, exist_ok=True)`.
Part of the model of `lib/functions.py:86-242`, `algorithms/topology_optimization.py:31-160`. -/
def mkdirs (d : Disk B) (p : List FName) : Except IoErr (Disk B) := mkdirsRev d p.reverse

/-- `open(p, 'w')` and writing: the old content is gone as soon as the file is open.
Part of the model of `lib/functions.py:86-242`, `algorithms/topology_optimization.py:31-160`. -/
def writeFile (d : Disk B) (p : List FName) (b : B) : Except IoErr (Disk B) :=
  match reach d [] p with
  | .error e => .error e
  | .ok () =>
    match d p with
    | some .dir => .error .isDir
    | _ => .ok (d.put p (.file b))

/-- `open(p, 'rb')` and reading. Part of the model of `lib/functions.py:86-242`, `algorithms/topology_optimization.py:31-160`. -/
def readFile (d : Disk B) (p : List FName) : Except IoErr B :=
  match reach d [] p with
  | .error e => .error e
  | .ok () =>
    match d p with
    | none => .error .notFound
    | some .dir => .error .isDir
    | some (.file b) => .ok b

/-- `dill` and `json`: the bytes which dumping writes, and whether it finishes without an exception; what loading returns.
Part of the model of `lib/functions.py:86-242`, `algorithms/topology_optimization.py:31-160`. -/
structure Coding (O D B : Type) where
  dumpObj : O → B × Bool
  loadObj : B → Option O
  dumpJson : D → B × Bool
  loadJson : B → Option D

/-! ### `InputOutput` -/

/-- The three paths of an `InputOutput` object. `lib/functions.py:86-243`. -/
structure Io where
  path : List FName
  savePath : List FName
  loadPath : List FName
deriving DecidableEq, Repr

/-- `__init__` (lines 104-125), in the working directory `cwd`. -/
def Io.init (cwd : List FName) (directory : Option (List Char)) : Io :=
  let base := cwd.dropLast.dropLast ++ ["asope_data".toList]
  let p := match directory with
    | none => base
    | some s => if isAbs s then pathParts s else base ++ pathParts s
  ⟨p, p, p⟩

/-- `unique_id` (lines 150-152), the day as `%Y%m%d` and the four characters drawn being given. -/
def uniqueId (day draw : List Char) : List Char := day ++ '_' :: draw

/-- `string.hexdigits`. Part of the model of `lib/functions.py:86-242`, `algorithms/topology_optimization.py:31-160`. -/
def hexdigits : List Char := "0123456789abcdefABCDEF".toList

/-- The path chosen by `init_save_dir` (lines 154-166); `uid` is the identifier drawn, or none with `unique_id=False`. -/
def Io.saveDirOf (io : Io) (sub uid : Option (List Char)) : List FName :=
  match sub, uid with
  | some s, some u => joinTo io.path (.ofStr (u ++ '_' :: s))
  | some s, none => joinTo io.path (.ofStr s)
  | none, some u => joinTo io.path (.ofStr u)
  | none, none => io.path

/-- The path chosen by `init_load_dir` (lines 171-175). -/
def Io.loadDirOf (io : Io) (sub : Option (List Char)) : List FName :=
  match sub with
  | some s => joinTo io.path (.ofStr s)
  | none => io.path

/-- The disk and the `InputOutput` objects, by number. `lib/functions.py:86-243`. -/
structure IoWorld (B : Type) where
  disk : Disk B
  ios : Nat → Io

/-- The calls which write, or move an object elsewhere.  `raw` is `save_fig` (lines 214-219) and `init_logging` (lines 127-129), the bytes being those
which are there in the end; `mkdir` is `join_to_save_path(name).mkdir(parents=True, exist_ok=True)`. -/
inductive IoCmd (O D B : Type) where
  | initSave (k : Nat) (sub uid : Option (List Char))
  | initLoad (k : Nat) (sub : Option (List Char))
  | saveObj (k : Nat) (o : O) (name : PyArg)
  | saveJson (k : Nat) (x : D) (name : PyArg)
  | raw (k : Nat) (b : B) (name : PyArg)
  | mkdir (k : Nat) (name : PyArg)
  | metadata (k : Nat) (sub : Option PyArg) (data : Option D)

/-- Writing what a serialiser delivers: what it wrote before an exception stays.
Part of the model of `lib/functions.py:86-242`, `algorithms/topology_optimization.py:31-160`. -/
def dumpTo (d : Disk B) (p : List FName) (r : B × Bool) : Disk B × Except IoErr Unit :=
  match writeFile d p r.1 with
  | .error e => (d, .error e)
  | .ok d' => (d', if r.2 then .ok () else .error .coding)

/-- Where `save_machine_metadata` (lines 181-188) writes, before its `mkdir`: a string which is an absolute path stays a string. -/
def Io.metadataDir (io : Io) : Option PyArg → Except IoErr (List FName)
  | none => .ok io.path
  | some (.str s) => if isAbs s then .error .attribute else .ok (joinTo io.savePath (.ofStr s))
  | some (.path p) => if p.abs then .ok p.parts else .ok (joinTo io.savePath p)

/-- One call: the world after it, and its exception.
Part of the model of `lib/functions.py:86-242`, `algorithms/topology_optimization.py:31-160`. -/
def IoWorld.exec (C : Coding O D B) (w : IoWorld B) : IoCmd O D B → IoWorld B × Except IoErr Unit
  -- lines 154-168: the object points to the new directory before the directory is made
  | .initSave k sub uid =>
    let p := (w.ios k).saveDirOf sub uid
    let ios := fun j => if j = k then { w.ios k with savePath := p } else w.ios j
    match mkdirs w.disk p with
    | .error e => (⟨w.disk, ios⟩, .error e)
    | .ok d => (⟨d, ios⟩, .ok ())
  -- lines 170-179: likewise, before the existence is checked
  | .initLoad k sub =>
    let p := (w.ios k).loadDirOf sub
    let ios := fun j => if j = k then { w.ios k with loadPath := p } else w.ios j
    (⟨w.disk, ios⟩, if (w.disk p).isSome then .ok () else .error .exists_)
  -- lines 134-142
  | .saveObj k o name =>
    let p := joinTo (w.ios k).savePath name.toPath
    match mkdirs w.disk p.dropLast with
    | .error e => (w, .error e)
    | .ok d =>
      let r := dumpTo d p (C.dumpObj o)
      (⟨r.1, w.ios⟩, r.2)
  -- lines 207-212
  | .saveJson k x name =>
    let r := dumpTo w.disk (joinTo (w.ios k).savePath name.toPath) (C.dumpJson x)
    (⟨r.1, w.ios⟩, r.2)
  | .raw k b name =>
    let r := dumpTo w.disk (joinTo (w.ios k).savePath name.toPath) (b, true)
    (⟨r.1, w.ios⟩, r.2)
  | .mkdir k name =>
    match mkdirs w.disk (joinTo (w.ios k).savePath name.toPath) with
    | .error e => (w, .error e)
    | .ok d => (⟨d, w.ios⟩, .ok ())
  -- lines 181-197; `get_machine_metadata` (lines 226-242) returns `None` after an exception
  | .metadata k sub data =>
    match data with
    | none => (w, .error .type)
    | some x =>
      match (w.ios k).metadataDir sub with
      | .error e => (w, .error e)
      | .ok p =>
        match mkdirs w.disk p with
        | .error e => (w, .error e)
        | .ok d =>
          let r := dumpTo d (p ++ ["metadata.json".toList]) (C.dumpJson x)
          (⟨r.1, w.ios⟩, r.2)

/-- Calls of a session, whatever their exceptions (each being caught).
Part of the model of `lib/functions.py:86-242`, `algorithms/topology_optimization.py:31-160`. -/
def IoWorld.session (C : Coding O D B) (w : IoWorld B) : List (IoCmd O D B) → IoWorld B
  | [] => w
  | c :: cs => IoWorld.session C (w.exec C c).1 cs

/-- Calls one after the other, up to the first exception.
Part of the model of `lib/functions.py:86-242`, `algorithms/topology_optimization.py:31-160`. -/
def IoWorld.script (C : Coding O D B) (w : IoWorld B) : List (IoCmd O D B) → IoWorld B × Except IoErr Unit
  | [] => (w, .ok ())
  | c :: cs =>
    match w.exec C c with
    | (w', .ok ()) => IoWorld.script C w' cs
    | (w', .error e) => (w', .error e)

/-- What a loader makes of bytes. Part of the model of `lib/functions.py:86-242`, `algorithms/topology_optimization.py:31-160`. -/
def decoded {α : Type} : Except IoErr B → (B → Option α) → Except IoErr α
  | .error e, _ => .error e
  | .ok b, f =>
    match f b with
    | none => .error .coding
    | some a => .ok a

/-- `load_object` (lines 143-148). -/
def IoWorld.loadObj (C : Coding O D B) (w : IoWorld B) (k : Nat) (name : PyArg) : Except IoErr O :=
  decoded (readFile w.disk (joinTo (w.ios k).loadPath name.toPath)) C.loadObj

/-- `load_json` (lines 200-205). -/
def IoWorld.loadJson (C : Coding O D B) (w : IoWorld B) (k : Nat) (name : PyArg) : Except IoErr D :=
  decoded (readFile w.disk (joinTo (w.ios k).loadPath name.toPath)) C.loadJson

/-! ### The files of a topology optimization -/

/-- A number in decimal. Part of the model of `lib/functions.py:86-242`, `algorithms/topology_optimization.py:31-160`. -/
def decimal (n : Nat) : List Char :=
  if n < 10 then [Nat.digitChar n] else decimal (n / 10) ++ [Nat.digitChar (n % 10)]
termination_by n

/-- `prefix + "gen{}_ind{}.json".format(gen, ind)` (line 151). -/
def graphFile (pre : List Char) (gen ind : Nat) : List Char :=
  pre ++ "gen".toList ++ decimal gen ++ "_ind".toList ++ decimal ind ++ ".json".toList

/-- `save_minimal_graph_data_pop` (lines 147-157), each individual given by the dictionary saved for it; none where the score or the graph is
`None`. -/
def popCmds (k gen : Nat) (folder pre : List Char) (pop : List (Option D)) : List (IoCmd O D B) :=
  pop.zipIdx.filterMap (fun p => p.1.map (fun x =>
    .saveJson k x (.path ⟨isAbs folder, pathParts folder ++ pathParts (graphFile pre gen p.2)⟩)))

/-- What a topology optimization saves: the options, the three objects, the settings, the dictionary of the first graph, population and hall of fame
after each generation, the log; the text of the standard output.
Part of the model of `lib/functions.py:86-242`, `algorithms/topology_optimization.py:31-160`. -/
structure RunData (O D B : Type) where
  gaOpts : D
  propagator : O
  evaluator : O
  evolver : O
  settings : D
  start : D
  gens : List (List (Option D) × List (Option D))
  log : O
  stdout : B
  saveGraphs : Bool
  saveHof : Bool

/-- The calls on `io` made by `topology_optimization` (lines 31, 68-76, 86-93, 131-137), in order. -/
def runCmds (k : Nat) (r : RunData O D B) : List (IoCmd O D B) :=
  [.raw k r.stdout (.str "stdout_logging.log".toList),
   .saveJson k r.gaOpts (.str "ga_opts.json".toList),
   .saveObj k r.propagator (.str "propagator.pkl".toList),
   .saveObj k r.evaluator (.str "evaluator.pkl".toList),
   .saveObj k r.evolver (.str "evolver.pkl".toList),
   .saveJson k r.settings (.str "optimization_settings.json".toList)]
  ++ (if r.saveGraphs then .mkdir k (.str "reduced_graphs".toList) :: popCmds k 0 "reduced_graphs".toList "graph_".toList [some r.start] else [])
  ++ (if r.saveHof then .mkdir k (.str "reduced_hof_graphs".toList) :: popCmds k 0 "reduced_hof_graphs".toList "hof_".toList [some r.start] else [])
  ++ r.gens.zipIdx.flatMap (fun p =>
      (if r.saveGraphs then popCmds k (p.2 + 1) "reduced_graphs".toList "graph_".toList p.1.1 else []) ++
      (if r.saveHof then popCmds k (p.2 + 1) "reduced_hof_graphs".toList "hof_".toList p.1.2 else []))
  ++ [.saveObj k r.log (.str "log.pkl".toList)]

end

end Verif
