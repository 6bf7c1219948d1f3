import Mathlib.Data.List.Basic

/-! # Model of the loading of the solvers by key and of the construction of the simulation objects

Models `lib/fluidsim_core/loader.py`, `lib/fluidsim_core/paths.py`, `lib/fluidsim_core/info.py` (the imported classes),
`lib/fluidsim_core/solver.py`, `fluidsim/base/solvers/base.py` (`SimulBase.__init__`),
`fluidsim/base/turb_model/base.py` (`modif_infosolver_turb_model`) and the table of the entry points of
`pyproject.toml` 91-132. -/

namespace Verif.Build

/-- The exceptions. -/
inductive Err
  | valueError | keyError | attributeError | typeError | importError
  deriving DecidableEq, Repr

/-! ### Keys of the solvers -/

/-- An entry point of the installed packages: group, name and module. -/
structure Entry where
  group : List Char
  name : List Char
  module : List Char
  deriving DecidableEq, Repr

/-- `available_solvers` (`loader.py` 17-30): the entry points of the group (`entry_points(group=...)` of `importlib`
compares the whole name of the group). -/
def available (table : List Entry) (grp : List Char) : List Entry := table.filter (·.group = grp)

/-- `import_module_solver` (`loader.py` 33-54): the first entry point of this name, `ValueError` if there is none. The
module itself stands for the result of `.load()`. -/
def importModule (table : List Entry) (grp key : List Char) : Except Err (List Char) :=
  match (available table grp).find? (·.name = key) with
  | some e => .ok e.module
  | none => .error .valueError

/-- `import_cls_simul` (`loader.py` 57-74). -/
def importCls (table : List Entry) (grp key : List Char) : Except Err (List Char) :=
  let key := if (grp ++ ['.']).isPrefixOf key then key.drop (grp.length + 1) else key
  importModule table grp key

private def e (g n m : String) : Entry := ⟨g.toList, n.toList, m.toList⟩

/-- The entry points of fluidsim (`pyproject.toml` 91-132). -/
def pyproject : List Entry :=
  [e "fluidsim.solvers" "basil" "fluidsim.base.basilisk.solver",
   e "fluidsim.solvers" "dedalus" "fluidsim.base.dedalus.solver",
   e "fluidsim.solvers" "Base" "fluidsim.base.solvers.base",
   e "fluidsim.solvers" "BasePS" "fluidsim.base.solvers.pseudo_spect",
   e "fluidsim.solvers" "BaseSH" "fluidsim.base.sphericalharmo.solver",
   e "fluidsim.solvers" "ad1d" "fluidsim.solvers.ad1d.solver",
   e "fluidsim.solvers" "burgers1d" "fluidsim.solvers.burgers1d.solver",
   e "fluidsim.solvers" "nl1d" "fluidsim.solvers.nl1d.solver",
   e "fluidsim.solvers" "ns2d" "fluidsim.solvers.ns2d.solver",
   e "fluidsim.solvers" "ns3d" "fluidsim.solvers.ns3d.solver",
   e "fluidsim.solvers" "plate2d" "fluidsim.solvers.plate2d.solver",
   e "fluidsim.solvers" "sw1l" "fluidsim.solvers.sw1l.solver",
   e "fluidsim.solvers" "waves2d" "fluidsim.solvers.waves2d.solver",
   e "fluidsim.solvers.ad1d" "pseudo_spect" "fluidsim.solvers.ad1d.pseudo_spect.solver",
   e "fluidsim.solvers.burgers1d" "skew_sym" "fluidsim.solvers.burgers1d.skew_sym.solver",
   e "fluidsim.solvers.models0d" "lorenz" "fluidsim.solvers.models0d.lorenz.solver",
   e "fluidsim.solvers.models0d" "predaprey" "fluidsim.solvers.models0d.predaprey.solver",
   e "fluidsim.solvers.ns2d" "bouss" "fluidsim.solvers.ns2d.bouss.solver",
   e "fluidsim.solvers.ns2d" "strat" "fluidsim.solvers.ns2d.strat.solver",
   e "fluidsim.solvers.ns3d" "bouss" "fluidsim.solvers.ns3d.bouss.solver",
   e "fluidsim.solvers.ns3d" "strat" "fluidsim.solvers.ns3d.strat.solver",
   e "fluidsim.solvers.sphere" "ns2d" "fluidsim.solvers.sphere.ns2d.solver",
   e "fluidsim.solvers.sphere" "sw1l" "fluidsim.solvers.sphere.sw1l.solver",
   e "fluidsim.solvers.sw1l" "exactlin" "fluidsim.solvers.sw1l.exactlin.solver",
   e "fluidsim.solvers.sw1l" "modified" "fluidsim.solvers.sw1l.modified.solver",
   e "fluidsim.solvers.sw1l" "onlywaves" "fluidsim.solvers.sw1l.onlywaves.solver"]

/-! ### Directories of results -/

/-- A path: absolute or relative, and its parts. -/
structure Path where
  abs : Bool
  parts : List (List Char)
  deriving DecidableEq, Repr

/-- `p / q`: `q` when it is absolute. -/
def Path.div (p q : Path) : Path := if q.abs then q else ⟨p.abs, p.parts ++ q.parts⟩

/-- What `find_path_result_dir` sees of the machine: the current directory, the home directory, `$FLUIDSIM_PATH` and
the directories (given by their absolute paths). -/
structure Machine where
  cwd : Path
  home : Path
  results : Path
  isDir : Path → Bool

/-- `path.absolute()`. -/
def Machine.absolute (m : Machine) (p : Path) : Path := m.cwd.div p

/-- `path.is_dir()`: a relative path is looked for from the current directory. -/
def Machine.dirAt (m : Machine) (p : Path) : Bool := m.isDir (m.absolute p)

/-- `path.expanduser()`: only the first part `~` of a relative path is replaced (`~name`, the home directory of another
user, is not modelled). -/
def Machine.expandUser (m : Machine) (p : Path) : Path :=
  match p.abs, p.parts with
  | false, ['~'] :: rest => ⟨m.home.abs, m.home.parts ++ rest⟩
  | _, _ => p

/-- `find_path_result_dir` (`paths.py` 15-43). -/
def findDir (m : Machine) (thing : Option Path) : Except Err Path :=
  match thing with
  | none => .ok m.cwd
  | some p =>
    let path := m.expandUser p
    if m.dirAt path then .ok (m.absolute path)
    else
      let path := if path.abs then path else m.results.div path
      if m.dirAt path then .ok path else .error .valueError

/-! ### The classes of a solver -/

/-- The part of the object `info_solver` which matters here: the children of `info_solver.classes`, in their order, each
with the names of its module and class if they are given, and the dictionary kept by `import_classes`. `κ` is the type of
the classes. The levels below (`info_solver.classes.Output.classes`, ...) are in `sub`, of any type. -/
structure Info (κ σ : Type) where
  classes : List (List Char × Option (List Char × List Char))
  cache : Option (List (List Char × κ))
  sub : σ

variable {κ σ : Type}

/-- The loop of `import_classes` (`lib/fluidsim_core/info.py` 111-120). `imp` is `import_class` (`none`:
`ImportError`). -/
def importAll (imp : List Char × List Char → Option κ) :
    List (List Char × Option (List Char × List Char)) → Except Err (List (List Char × κ))
  | [] => .ok []
  | (_, none) :: rest => importAll imp rest
  | (tag, some ref) :: rest =>
    match imp ref with
    | none => .error .importError
    | some c => match importAll imp rest with
      | .ok l => .ok ((tag, c) :: l)
      | .error e => .error e

/-- `import_classes` (`info.py` 100-123): the dictionary and the object, with the dictionary kept. -/
def Info.importClasses (imp : List Char × List Char → Option κ) (info : Info κ σ) :
    Except Err (List (List Char × κ) × Info κ σ) :=
  match info.cache with
  | some d => .ok (d, info)
  | none => match importAll imp info.classes with
    | .ok d => .ok (d, { info with cache := some d })
    | .error e => .error e

/-- `complete_with_classes` (`info.py` 125-132). `complete c` is `c._complete_info_solver`; simplification: these methods
of the repository only write below `info_solver.classes.<Tag>`. -/
def Info.complete (imp : List Char × List Char → Option κ) (complete : κ → σ → σ) (info : Info κ σ) :
    Except Err (Info κ σ) :=
  match info.importClasses imp with
  | .ok (d, info) => .ok { info with sub := d.foldl (fun s x => complete x.2 s) info.sub }
  | .error e => .error e

/-- `InfoSolver()` (`info.py` 48-76): `root` is the object after `_init_root`; then the functions of `_modificators`
are applied. -/
def Info.create (imp : List Char × List Char → Option κ) (complete : κ → σ → σ)
    (modifs : List (Info κ σ → Info κ σ)) (root : Info κ σ) : Except Err (Info κ σ) :=
  match root.complete imp complete with
  | .ok info => .ok (modifs.foldl (fun i f => f i) info)
  | .error e => .error e

/-- The function of the extenders which are outputs or forcings (`fluidsim/base/output/horiz_means.py` 77-84,
`fluidsim/base/forcing/kolmogorov.py` 36-43, `fluidsim/extend_simul/spatial_means_regions_milestone.py` 248-255): a child
is added below `classes.Output` or `classes.Forcing`. -/
def modifSub (f : σ → σ) (info : Info κ σ) : Info κ σ := { info with sub := f info.sub }

/-- `modif_infosolver_turb_model` (`fluidsim/base/turb_model/base.py` 24-41) followed by the addition of the model
(111-117); `hasattr(info_solver, "_cached_imported_classes")` is not tested, the effect is the same. -/
def modifTurb (f : σ → σ) (info : Info κ σ) : Info κ σ :=
  if (info.classes.map (·.1)).contains "TurbModel".toList then { info with sub := f info.sub }
  else { classes := info.classes ++ [("TurbModel".toList, some ("fluidsim.base.turb_model.base".toList, "TurbModel".toList))],
         cache := none, sub := f info.sub }

/-- An extender which replaces the class of a child of `info_solver.classes`
(`info_solver.classes.<tag>.class_name = ...`), as the solvers do in `_init_root`. -/
def modifClass (tag : List Char) (ref : List Char × List Char) (info : Info κ σ) : Info κ σ :=
  { info with classes := info.classes.map fun x => if x.1 = tag then (tag, some ref) else x }

/-! ### The attribute `info_solver` of the classes -/

/-- The classes `Simul`, with numbers: `mro c` is the list of `c` and of its ancestors, `infoCls c` the number of the class
`c.InfoSolver`, `sub i j` says that the class `InfoSolver` `i` derives from (or is) `j`. -/
structure Hier where
  mro : ℕ → List ℕ
  infoCls : ℕ → ℕ
  sub : ℕ → ℕ → Bool

/-- The attribute `info_solver` in the dictionary of each class: the class of the object. -/
abbrev Attrs := ℕ → Option ℕ

/-- `create_default_params` (`lib/fluidsim_core/solver.py` 33-40). -/
def Hier.createDefaultParams (h : Hier) (a : Attrs) (c : ℕ) : Attrs :=
  fun d => if d = c then some (h.infoCls c) else a d

/-- `SimulCore.__init__` (`solver.py` 42-53): the class of the object `info_solver` used. -/
def Hier.infoUsed (h : Hier) (a : Attrs) (c : ℕ) : ℕ :=
  match (h.mro c).findSome? a with
  | none => h.infoCls c
  | some i => if h.sub i (h.infoCls c) then i else h.infoCls c

/-! ### Construction of the object -/

/-- The steps of `SimulBase.__init__` which can be observed: the construction of the object of a class and the calls. -/
inductive Event (κ : Type)
  | new (tag : List Char) (cls : κ)
  | callInitFields
  | task (name : List Char) (cls : κ)
  | postInit
  | callPreprocess
  deriving DecidableEq, Repr

/-- What is read of the parameters and of the classes: `params.<task>` (`none`: `AttributeError`) and its attribute
`enable` (`none`: `AttributeError`), and `cls._name_task`. -/
structure Env (κ : Type) where
  enable : List Char → Option (Option Bool)
  nameTask : κ → Option (List Char)

/-- The tags of `keys_simple_classes` (`fluidsim/base/solvers/base.py` 190-197). -/
def simpleTags : List (List Char) :=
  ["Operators".toList, "Output".toList, "State".toList, "TimeStepping".toList, "InitFields".toList, "Preprocess".toList]

/-- `dict_classes[tag]`. -/
def getCls (d : List (List Char × κ)) (tag : List Char) : Except Err κ :=
  match d.find? (·.1 = tag) with
  | some x => .ok x.2
  | none => .error .keyError

/-- The attributes `is_<task>_enabled` and the steps. -/
structure Built (κ : Type) where
  flags : List (List Char × Bool)
  log : List (Event κ)

/-- One iteration of the loop on the other classes (`base.py` 203-213). -/
def buildTask (env : Env κ) (b : Built κ) (x : List Char × κ) : Except Err (Built κ) :=
  match env.nameTask x.2 with
  | none => .error .attributeError
  | some t =>
    let b := { b with flags := b.flags ++ [(t, false)] }
    match env.enable t with
    | none => .ok b
    | some none => .error .attributeError
    | some (some true) => .ok { flags := b.flags ++ [(t, true)], log := b.log ++ [.task t x.2] }
    | some (some false) => .ok b

/-- The loop. -/
def buildTasks (env : Env κ) : Built κ → List (List Char × κ) → Except Err (Built κ)
  | b, [] => .ok b
  | b, x :: rest => match buildTask env b x with
    | .ok b => buildTasks env b rest
    | .error e => .error e

/-- `SimulBase.__init__` (`base.py` 116-223), for the dictionary of the classes; an exception loses the objects already
built. The lock file and the signals are in
`Verif.RunDirs`, the effects of the objects on the parameters and on the directories in the other models. -/
def construct (env : Env κ) (d : List (List Char × κ)) : Except Err (Built κ) := do
  let oper ← getCls d "Operators".toList
  let output ← getCls d "Output".toList
  let state ← getCls d "State".toList
  let ts ← getCls d "TimeStepping".toList
  let fields ← getCls d "InitFields".toList
  let b : Built κ := ⟨[], [.new "Operators".toList oper, .new "Output".toList output, .new "State".toList state,
    .new "TimeStepping".toList ts, .new "InitFields".toList fields, .callInitFields]⟩
  let b ← buildTasks env b (d.filter fun x => !simpleTags.contains x.1)
  let log := b.log ++ [.postInit]
  match d.find? (·.1 = "Preprocess".toList) with
  | some x => .ok ⟨b.flags, log ++ [.new "Preprocess".toList x.2, .callPreprocess]⟩
  | none => .ok ⟨b.flags, log⟩

/-- `sim.is_<task>_enabled`: the last value set. -/
def Built.flag (b : Built κ) (t : List Char) : Option Bool := (b.flags.reverse.find? (·.1 = t)).map (·.2)

end Verif.Build
