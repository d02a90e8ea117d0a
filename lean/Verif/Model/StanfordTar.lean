import Mathlib.Data.List.Basic
/-!
The check of archive members before they are unpacked (examples/stanford_2d3ds_dataset.py, `_check_tar_members`), used with versions of Python whose `tarfile` has
no `data_filter`, and what unpacking does to a disk with symbolic links.
-/
namespace Verif.Stanford

/-- A path: whether it starts with a slash, and the pieces between slashes. -/
structure PPath where
  abs : Bool
  comps : List String
  deriving DecidableEq

/-- `os.path.join(base, p)` for an absolute `base` (external: CPython). -/
def joinAbs (base : List String) (p : PPath) : List String := if p.abs then p.comps else base ++ p.comps

/-- One piece of a path in `os.path.normpath`. -/
def normStep (cur : List String) (c : String) : List String :=
  if c = "" ∨ c = "." then cur else if c = ".." then cur.dropLast else cur ++ [c]

/-- `os.path.abspath` of an absolute path (external: CPython): it works on the text alone. Paths that start with exactly two slashes, which CPython keeps apart, are
outside the model. -/
def normPath (p : List String) : List String := p.foldl normStep []

/-- What a member is. -/
inductive Kind where
  | file
  | dir
  | symlink (target : PPath)
  | hardlink (target : PPath)

structure TarMember where
  name : PPath
  kind : Kind

/-- `member_path == base_dir or member_path.startswith(base_dir + os.sep)`, 171 and 175, for paths without empty pieces. For the root directory the second test
compares with two slashes and fails. -/
def isWithin (base p : List String) : Bool := p = base || (base ≠ [] && base.isPrefixOf p)

/-- The body of the loop, 170-177: whether the member is let through. `base` is `os.path.abspath(self.local_dir)`. -/
def memberAllowed (base : List String) (m : TarMember) : Bool :=
  let path := normPath (joinAbs base m.name)
  isWithin base path &&
    match m.kind with
    | .symlink t => isWithin base (normPath (joinAbs path.dropLast t))
    | .hardlink t => isWithin base (normPath (joinAbs path.dropLast t))
    | _ => true

/-- `_check_tar_members`, 167-177: no exception. -/
def checkTarMembers (base : List String) (ms : List TarMember) : Bool := ms.all (memberAllowed base)

/-! ### Unpacking (external: tarfile and the operating system) -/

/-- An entry of the disk. -/
inductive Entry where
  | file
  | dir
  | link (target : PPath)

/-- Absolute real paths. -/
abbrev Fs := List String → Option Entry

def Fs.put (fs : Fs) (p : List String) (e : Entry) : Fs := fun q => if q = p then some e else fs q

/-- Path resolution by the operating system: from the directory `cur`, piece by piece, following symbolic links, at most `fuel` of them. Missing entries are
directories still to be made. -/
def resolve (fuel : ℕ) (fs : Fs) (cur : List String) (comps : List String) : Option (List String) :=
  match comps with
  | [] => some cur
  | c :: rest =>
    if c = "" ∨ c = "." then resolve fuel fs cur rest
    else if c = ".." then resolve fuel fs cur.dropLast rest
    else
      match fs (cur ++ [c]) with
      | some (.link t) =>
        match fuel with
        | 0 => none
        | fuel + 1 => resolve fuel fs (if t.abs then [] else cur) (t.comps ++ rest)
      | _ => resolve fuel fs (cur ++ [c]) rest
  termination_by (fuel, comps.length)

/-- Unpacking one member into `base`: the new disk and the real paths that are written, or (hard links) tied to a member. `tarfile` joins member names and the targets of
hard links with `base`; the targets of symbolic links are stored as they are. -/
def extractOne (fuel : ℕ) (base : List String) (fs : Fs) (m : TarMember) : Option (Fs × List (List String)) :=
  match m.kind with
  | .file => (resolve fuel fs [] (joinAbs base m.name)).map fun p => (fs.put p .file, [p])
  | .dir => (resolve fuel fs [] (joinAbs base m.name)).map fun p => (fs.put p .dir, [p])
  | .symlink t =>
    let path := joinAbs base m.name
    match path.getLast? with
    | none => none
    | some c => if c = "" ∨ c = "." ∨ c = ".." then none
      else (resolve fuel fs [] path.dropLast).map fun p => (fs.put (p ++ [c]) (.link t), [p ++ [c]])
  | .hardlink t =>
    let path := joinAbs base m.name
    match path.getLast? with
    | none => none
    | some c => if c = "" ∨ c = "." ∨ c = ".." then none
      else
        match resolve fuel fs [] path.dropLast, resolve fuel fs [] (joinAbs base t) with
        | some p, some src => some (fs.put (p ++ [c]) .file, [p ++ [c], src])
        | _, _ => none

/-- Unpacking a list of members: all paths that are touched. -/
def extractAll (fuel : ℕ) (base : List String) : Fs → List TarMember → Option (Fs × List (List String))
  | fs, [] => some (fs, [])
  | fs, m :: ms =>
    match extractOne fuel base fs m with
    | none => none
    | some (fs', ps) =>
      match extractAll fuel base fs' ms with
      | none => none
      | some (fs'', qs) => some (fs'', ps ++ qs)

end Verif.Stanford
