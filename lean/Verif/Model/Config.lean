import Mathlib.Data.List.Basic
import Mathlib.Logic.Function.Basic

set_option autoImplicit false

/-!
# `galpy/util/config.py`

The configuration file and its repair when galpy is imported.  A configuration is a `configparser.ConfigParser`: the
values of the `[DEFAULT]` section and those of the other sections, as written (before interpolation).
-/

namespace Verif.Config

/-- The text of a value. -/
abbrev Text := List Char

/-- One section: its keys (in lower case) with their values. -/
abbrev Sec := String → Option Text

/-- A `ConfigParser`.  Simplification: the content of a file is the configuration parsed from it; comments, the order
of the entries and files that cannot be parsed are not modelled. -/
structure Config where
  sections : String → Option Sec
  defaults : Sec

/-- `configparser.ConfigParser()`. -/
def Config.empty : Config := ⟨fun _ => none, fun _ => none⟩

/-- The exceptions. -/
inductive Err where
  /-- `configparser.InterpolationError` (a `%` in a value that is not `%%` or a reference, or a bad reference). -/
  | interpolation
  /-- The `ValueError` of `ConfigParser.set` for a value with a `%` that is not `%%` or a reference. -/
  | badValue
  /-- `configparser.DuplicateSectionError`. -/
  | duplicateSection
  /-- `configparser.NoSectionError`. -/
  | noSection
  deriving DecidableEq

/-- A reference `%(name)s` at the beginning of a text: the name and the rest. -/
def reference : Text → Option (Text × Text)
  | '%' :: '(' :: r =>
    match r.span (· ≠ ')') with
    | (name, ')' :: 's' :: r') => if name = [] then none else some (name, r')
    | _ => none
  | _ => none

/-- The loop of `BasicInterpolation` over a text; `value` is the interpolated value of the key with a given name, the
second argument bounds the length of the text. -/
def interpolateText (value : Text → Option Text) : ℕ → Text → Option Text
  | _, [] => some []
  | 0, _ => none
  | n + 1, c :: r =>
    if c = '%' then
      match r with
      | '%' :: r' => (interpolateText value n r').map ('%' :: ·)
      | _ =>
        match reference (c :: r) with
        | some (name, r') => (value name).bind fun w => (interpolateText value n r').map (w ++ ·)
        | none => none
    else (interpolateText value n r).map (c :: ·)

/-- `BasicInterpolation` with what a reference stands for; the first argument is the number of levels of references
that are still allowed. -/
def interpolate (look : Text → Option Text) : ℕ → Text → Option Text
  | 0, _ => none
  | d + 1, t =>
    interpolateText (fun name => (look name).bind fun v => if '%' ∉ v then some v else interpolate look d v) t.length t

/-- `value.replace("%%", "")`. -/
def removePercents : Text → Text
  | '%' :: '%' :: r => removePercents r
  | c :: r => c :: removePercents r
  | [] => []

/-- Removing all references; the first argument bounds the length of the text. -/
def removeReferences : ℕ → Text → Text
  | 0, t => t
  | n + 1, t =>
    match reference t, t with
    | some (_, r), _ => removeReferences n r
    | none, c :: r => c :: removeReferences n r
    | none, [] => []

/-- Whether `ConfigParser.set` accepts a value (`BasicInterpolation.before_set`). -/
def settable (t : Text) : Bool :=
  let u := removePercents t
  decide ('%' ∉ removeReferences u.length u)

/-- `has_section`. -/
def Config.hasSection (c : Config) (s : String) : Bool := (c.sections s).isSome

/-- The value of a key in a section as written: the section's own or that of `[DEFAULT]`. -/
def Config.raw (c : Config) (s k : String) : Option Text :=
  (c.sections s).bind fun sec => (sec k).or (c.defaults k)

/-- `has_option`. -/
def Config.hasOption (c : Config) (s k : String) : Bool := (c.raw s k).isSome

/-- `get`: the value after interpolation. -/
def Config.get (c : Config) (s k : String) : Except Err Text :=
  match c.raw s k with
  | none => .error .noSection
  | some v =>
    match interpolate (fun name => c.raw s (String.ofList name).toLower) 10 v with
    | none => .error .interpolation
    | some w => .ok w

/-- `add_section`. -/
def Config.addSection (c : Config) (s : String) : Except Err Config :=
  if c.hasSection s then .error .duplicateSection
  else .ok { c with sections := Function.update c.sections s (some fun _ => none) }

/-- `set`. -/
def Config.set (c : Config) (s k : String) (v : Text) : Except Err Config :=
  if settable v then
    match c.sections s with
    | none => .error .noSection
    | some sec => .ok { c with sections := Function.update c.sections s (some (Function.update sec k (some v))) }
  else .error .badValue

/-- The required sections and keys with their default values (config.py 8-19). -/
def defaultConfiguration : List (String × List (String × Text)) :=
  [("normalization", [("ro", "8.".toList), ("vo", "220.".toList)]),
    ("astropy", [("astropy-units", "False".toList), ("astropy-coords", "True".toList)]),
    ("plot", [("seaborn-bovy-defaults", "False".toList)]),
    ("warnings", [("verbose", "False".toList)]),
    ("version-check", [("do-check", "True".toList), ("check-non-interactive", "True".toList),
      ("check-non-interactive-every", "1".toList), ("last-non-interactive-check", "2000-01-01".toList)])]

/-- `check_config` (config.py 23-31). -/
def checkConfig (c : Config) : Bool :=
  defaultConfiguration.all fun p => c.hasSection p.1 && p.2.all fun q => c.hasOption p.1 q.1

/-- The value that `fix_config` gives to a key (config.py 42-49). -/
def fixValue (conf : Option Config) (s k : String) (dflt : Text) : Except Err Text :=
  match conf with
  | none => .ok dflt
  | some c => if !c.hasSection s || !c.hasOption s k then .ok dflt else c.get s k

/-- The loop over the keys of a section (config.py 41-49). -/
def fixKeys (conf : Option Config) (s : String) (fixed : Config) (keys : List (String × Text)) : Except Err Config :=
  keys.foldlM (fun fixed q => do
    let v ← fixValue conf s q.1 q.2
    fixed.set s q.1 v) fixed

/-- `fix_config` (config.py 34-50). -/
def fixConfig (conf : Option Config) : Except Err Config :=
  defaultConfiguration.foldlM (fun fixed p => do
    let fixed ← fixed.addSection p.1
    fixKeys conf p.1 fixed p.2) Config.empty

/-- The files: `.galpyrc` in the working directory and in the home directory. -/
structure Disk where
  here : Option Config
  home : Option Config

/-- `write_config` (config.py 53-62): a file that cannot be written is left as it is, with a warning. -/
def writeHere (writable : Bool) (d : Disk) (c : Config) : Disk := if writable then { d with here := some c } else d

@[inherit_doc writeHere]
def writeHome (writable : Bool) (d : Disk) (c : Config) : Disk := if writable then { d with home := some c } else d

/-- Reading the configuration when galpy is imported (config.py 66-78): the configuration and the files afterwards. -/
def load (writable : Bool) (d : Disk) : Except Err (Config × Disk) :=
  match d.here with
  | some c =>
    if checkConfig c then .ok (c, d)
    else do
      let c' ← fixConfig (some c)
      .ok (c', writeHere writable d c')
  | none =>
    match d.home with
    | some c =>
      if checkConfig c then .ok (c, d)
      else do
        let c' ← fixConfig (some c)
        .ok (c', writeHome writable d c')
    | none => do
      let c ← fixConfig none
      let d' := writeHome writable d c
      if checkConfig c then .ok (c, d')
      else do
        let c' ← fixConfig (some c)
        .ok (c', writeHome writable d' c')

end Verif.Config
