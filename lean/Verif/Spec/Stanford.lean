import Verif.Model.StanfordDownload
/-!
Specification vocabulary: servers that deliver one file, histories of attempts, complete and incomplete directories.
-/
namespace Verif.Spec
open Verif.Stanford

/-- The server delivers `content`: it refuses, or sends it from the start (status below 400 other than 206), or, asked for the bytes from `start` on, sends
these with status 206. A connection that breaks delivers a prefix. -/
def Honest (content : Bytes) (server : Option ℕ → Reply) : Prop :=
  ∀ range status body broken, server range = .answer status body broken → 400 ≤ status ∧ status < 600 ∨
    ∃ rest, body <+: rest ∧ (broken = false → body = rest) ∧
      ((status ≠ 206 ∧ rest = content) ∨ ∃ start, range = some start ∧ status = 206 ∧ rest = content.drop start)

/-- The disk `d` can be left by a number of attempts to download `f` from servers that deliver `content`, each of which ended, raised or was killed. -/
inductive Attempts (C : Conf) (content : Bytes) (f : String) (d0 : Disk) : Disk → Prop
  | start : Attempts C content f d0 d0
  | attempt {d d' : Disk} {server : Option ℕ → Reply} : Attempts C content f d0 d → Honest content server → (download C server d f).leaves d' →
      Attempts C content f d0 d'

/-- The directory entries of an archive that is unpacked completely. -/
def allOf (ms : List Member) : List (String × Bool) := ms.map fun m => (m.rest, true)

/-- Archives: what the files contain, and that all members of the archive of a pair lie in its directory. -/
structure Archives (parse : Bytes → Option (List Member)) (content : String → Bytes) (members : String → List Member) (pairs : List (String × String)) : Prop where
  parse : ∀ p ∈ pairs, parse (content p.1) = some (members p.1)
  top : ∀ p ∈ pairs, ∀ m ∈ members p.1, m.top = p.2

/-- No two of the names that a list of pairs uses (file, temporary file, directory) are equal. -/
def Distinct (pairs : List (String × String)) : Prop :=
  (∀ p ∈ pairs, p.1 ≠ p.2 ∧ tempPath p.1 ≠ p.1 ∧ tempPath p.1 ≠ p.2) ∧
  ∀ p ∈ pairs, ∀ q ∈ pairs, p ≠ q → p.1 ≠ q.1 ∧ p.1 ≠ q.2 ∧ p.2 ≠ q.2 ∧ tempPath p.1 ≠ tempPath q.1 ∧ tempPath p.1 ≠ q.1 ∧ tempPath p.1 ≠ q.2

/-- The disk `d` can be left by a number of runs of `download_dataset`, each of which ended, raised or was killed. -/
inductive Runs (C : Conf) (parse : Bytes → Option (List Member)) (content : String → Bytes) (pairs : List (String × String)) (d0 : Disk) : Disk → Prop
  | start : Runs C parse content pairs d0 d0
  | run {d d' : Disk} {server : String → Option ℕ → Reply} {labels : Bool} : Runs C parse content pairs d0 d → (∀ p ∈ pairs, Honest (content p.1) (server p.1)) →
      (downloadDataset C server labels parse d pairs).leaves d' → Runs C parse content pairs d0 d'

end Verif.Spec
