import Mathlib.Data.List.Basic
/-!
Downloading, unpacking and converting the Stanford 2D-3D-S data set (examples/stanford_2d3ds_dataset.py), on a disk that survives the process.

The disk is the content of `local_dir`; names are relative to it. A process may be killed at any time: `Run.trace` lists the disk states in between. One byte is
one step of a write, so that a kill may leave any prefix of what was written (this covers Python's buffering). Loss of data the operating system has
accepted, other processes using the directory, and a full disk are outside the model.
-/
namespace Verif.Stanford

abbrev Bytes := List UInt8

/-- Something in `local_dir`: a file, a directory that was unpacked (its members, with whether they are fully written), or a converted data set of `total`
samples, `written` of which are stored, with or without the statistics at its end. -/
inductive Node where
  | file (content : Bytes)
  | folder (members : List (String × Bool))
  | h5 (total written : ℕ) (stats : Bool)
  deriving DecidableEq

abbrev Disk := String → Option Node

/-- Bind the name `p` (`none` removes it). -/
def Disk.set (d : Disk) (p : String) (n : Option Node) : Disk := fun q => if q = p then n else d q

/-- The exceptions. -/
inductive DlErr where
  | http         -- `response.raise_for_status()`
  | connection   -- `requests` gives up
  | checksum     -- `RuntimeError` of `_verify_checksum`
  | os           -- `OSError`: a directory where a file should be, or the other way round
  | tarRead      -- `tarfile.ReadError`
  | index        -- `IndexError`
  | value        -- `ValueError`
  | sample       -- an image that cannot be read or has an unknown colour
  deriving DecidableEq, Repr

/-- What a call does: the disk states it passes through before the last one, the last one, and the result. A process that is killed leaves one of them. -/
structure Run (α : Type) where
  trace : List Disk
  final : Disk
  result : Except DlErr α

/-- The disks that a call leaves if it ends, raises or is killed. -/
def Run.leaves {α : Type} (r : Run α) (d : Disk) : Prop := d ∈ r.trace ∨ d = r.final

/-- One call after the other; an exception ends the sequence. -/
def Run.bind {α β : Type} (r : Run α) (k : Disk → α → Run β) : Run β :=
  match r.result with
  | .error e => ⟨r.trace, r.final, .error e⟩
  | .ok a => ⟨r.trace ++ r.final :: (k r.final a).trace, (k r.final a).final, (k r.final a).result⟩

/-- The answer to a request: no answer, or a status, a body, and whether the connection broke after it (which `iter_content` reports). -/
inductive Reply where
  | fails
  | answer (status : ℕ) (body : Bytes) (broken : Bool)

/-- `self.checksums`, stanford_2d3ds_dataset.py 97-102 (`none` if checking is disabled), and SHA-256 (external: hashlib; reading in pieces does not matter). -/
structure Conf where
  sha : Bytes → String
  checksums : Option (String → Option String)

/-- `_verify_checksum`, 114-126. -/
def verify (C : Conf) (filename : String) (n : Node) : Except DlErr Unit :=
  match C.checksums with
  | none => .ok ()
  | some get =>
    match get filename with
    | none => .ok ()
    | some expected =>
      match n with
      | .file b => if C.sha b = expected then .ok () else .error .checksum
      | _ => .error .os

/-- `os.path.splitext(p)[0]` (external: CPython's `genericpath._splitext`), on the characters in reverse order: the part before the last dot of the last
component, unless only dots precede it there. -/
def splitextRev (r : List Char) : List Char :=
  let comp := r.takeWhile (· ≠ '/')
  let rest := r.drop comp.length
  let ext := comp.takeWhile (· ≠ '.')
  let stem := comp.drop (ext.length + 1)
  if ext.length < comp.length ∧ stem.any (· ≠ '.') then stem ++ rest else r

/-- `temp_path`, 141. -/
def tempPath (p : String) : String := String.ofList (splitextRev p.toList.reverse).reverse ++ ".part"

/-- The disks while `body` is appended to `base` in the file `p`. -/
def writing (d : Disk) (p : String) (base body : Bytes) : List Disk :=
  (List.range (body.length + 1)).map fun k => d.set p (some (.file (base ++ body.take k)))

/-- `_download_file`, 148-165: request, write, rename, verify. `old` is the content of the temporary file, if there is one. -/
def fetch (C : Conf) (reply : Reply) (d : Disk) (filename : String) (old : Option Bytes) : Run String :=
  match reply with
  | .fails => ⟨[], d, .error .connection⟩
  | .answer status body broken =>
    if 400 ≤ status ∧ status < 600 then ⟨[], d, .error .http⟩
    else
      let t := tempPath filename
      let base := if status = 206 then old.getD [] else []
      let full := d.set t (some (.file (base ++ body)))
      if broken then ⟨d :: writing d t base body, full, .error .connection⟩
      else
        let done := (full.set t none).set filename (some (.file (base ++ body)))
        ⟨d :: writing d t base body, done, (verify C filename (.file (base ++ body))).map fun _ => filename⟩

/-- `_download_file`, 128-165. The server sees whether there is a `Range` header and its start. -/
def download (C : Conf) (server : Option ℕ → Reply) (d : Disk) (filename : String) : Run String :=
  match d filename with
  | some n => ⟨[], d, (verify C filename n).map fun _ => filename⟩
  | none =>
    match d (tempPath filename) with
    | none => fetch C (server none) d filename none
    | some (.file b) => fetch C (server (some b.length)) d filename (some b)
    | some _ => ⟨[], d, .error .os⟩

/-- A member of an archive: the first component of its path and the rest. -/
structure Member where
  top : String
  rest : String

/-- `member.name`. -/
def Member.name (m : Member) : String := if m.rest = "" then m.top else m.top ++ "/" ++ m.rest

/-- `tar.extractall`, 185-189, for members that are allowed: one after the other, each first incomplete. -/
def extractMembers : Disk → List Member → Run Unit
  | d, [] => ⟨[], d, .ok ()⟩
  | d, m :: ms =>
    match (match d m.top with | none => some [] | some (.folder l) => some l | some _ => none) with
    | none => ⟨[], d, .error .os⟩
    | some l =>
      let d1 := d.set m.top (some (.folder (l ++ [(m.rest, false)])))
      let d2 := d.set m.top (some (.folder (l ++ [(m.rest, true)])))
      let r := extractMembers d2 ms
      ⟨d :: d1 :: d2 :: r.trace, r.final, r.result⟩

/-- `_extract_tar`, 179-194; `parse` reads an archive (external: tarfile). The result is the name of the first member. -/
def extractTar (parse : Bytes → Option (List Member)) (d : Disk) (tar : String) : Run String :=
  match d tar with
  | some (.file b) =>
    match parse b with
    | none => ⟨[], d, .error .tarRead⟩
    | some ms => (extractMembers d ms).bind fun d' _ =>
      match ms with
      | [] => ⟨[], d', .error .index⟩
      | m :: _ => ⟨[], d'.set tar none, .ok m.name⟩
  | _ => ⟨[], d, .error .os⟩

/-- The loop of `download_dataset`, 213-220, over (file, folder) pairs; `server f` answers requests for the file `f`. -/
def downloadLoop (C : Conf) (server : String → Option ℕ → Reply) (parse : Bytes → Option (List Member)) : Disk → List (String × String) → Run (List String)
  | d, [] => ⟨[], d, .ok []⟩
  | d, (f, folder) :: rest =>
    match d folder with
    | none => (download C (server f) d f).bind fun d1 path => (extractTar parse d1 path).bind fun d2 name =>
        (downloadLoop C server parse d2 rest).bind fun d3 names => ⟨[], d3, .ok (name :: names)⟩
    | some _ => (downloadLoop C server parse d rest).bind fun d3 names => ⟨[], d3, .ok (folder :: names)⟩

/-- `download_dataset`, 196-224; `labels` is whether the class labels can be fetched. -/
def downloadDataset (C : Conf) (server : String → Option ℕ → Reply) (labels : Bool) (parse : Bytes → Option (List Member)) (d : Disk)
    (pairs : List (String × String)) : Run (List String) :=
  (downloadLoop C server parse d pairs).bind fun d' names => ⟨[], d', if labels then .ok names else .error .connection⟩

/-- The loop over samples of `convert_dataset`, 376-471, and the statistics, 473-489: `k` of `total` samples are stored. `good` says whether a sample can be read
and has known colours only. The statistics are written at once here. -/
def convertLoop (good : String → Bool) (file : String) (total : ℕ) : Disk → ℕ → List String → Run String
  | d, k, [] => ⟨[d], d.set file (some (.h5 total k true)), .ok file⟩
  | d, k, s :: rest =>
    if good s then
      let d' := d.set file (some (.h5 total (k + 1) false))
      let r := convertLoop good file total d' (k + 1) rest
      ⟨d :: r.trace, r.final, r.result⟩
    else ⟨[], d, .error .sample⟩

/-- `convert_dataset`, 250-491; `scan` finds the samples among the members of a directory (304-339). -/
def convertDataset (scan : List (String × Bool) → List String) (good : String → Bool) (d : Disk) (folders : List String) (file : String) : Run String :=
  let samples := folders.flatMap fun f => match d f with | some (.folder ms) => scan ms | _ => []
  if samples = [] then ⟨[], d, .error .value⟩
  else
    let r := convertLoop good file samples.length (d.set file (some (.h5 samples.length 0 false))) 0 samples
    ⟨d :: r.trace, r.final, r.result⟩

/-- `prepare_dataset`, 493-512. -/
def prepareDataset (C : Conf) (server : String → Option ℕ → Reply) (labels : Bool) (parse : Bytes → Option (List Member))
    (scan : List (String × Bool) → List String) (good : String → Bool) (d : Disk) (pairs : List (String × String)) (file : String) : Run String :=
  match d file with
  | some _ => ⟨[], d, .ok file⟩
  | none => (downloadDataset C server labels parse d pairs).bind fun d' folders => convertDataset scan good d' folders file

end Verif.Stanford
