import Mathlib.Data.List.Basic
import Mathlib.Algebra.Order.Floor.Ring
import Mathlib.Algebra.Order.Archimedean.Real.Basic
import Mathlib.Logic.Function.Basic
import Verif.Model.Basic
/-!
Model of `load_mola_elevation`, `utils.py` 49-100: a picture that is downloaded once and cached in a directory which all processes share.

Every process makes one call. A process makes its steps one at a time, in any order among the processes; one that is killed makes no more steps. The cached file is
changed by opening it (which empties it) and by writing to it; one `f.write` reaches the file in pieces of any size, each at the position of the descriptor. What the
network delivers and how PIL decodes bytes are arguments. Deleting the file, a full disk and a directory that does not exist are not modelled.
-/
namespace Verif.Elevation
open Verif

abbrev Bytes := List ℕ

/-- A picture in shades of grey. -/
structure Picture where
  h : ℕ
  w : ℕ
  val : ℕ → ℕ → ℕ

/-- Why a call fails: `URLError` and its relatives from the network, `FileNotFoundError`, PIL's `UnidentifiedImageError` and "image file is truncated". -/
inductive Fault where
  | network | missing | unreadable
  deriving DecidableEq

/-- What surrounds the processes: whether the connection of process `t` is made, what its response holds (`none`: reading it raises), and `Image.open(path).convert("L")`
on the bytes of a file. -/
structure World where
  connect : ℕ → Bool
  body : ℕ → Option Bytes
  decode : Bytes → Option Picture

/-- Where a process is: about to look for the file, to connect, to open the file, to read the response, to write more of it (`o` bytes are written), to load the
picture, or done. -/
inductive Pc where
  | check | connect | opening | read
  | write (b : Bytes) (o : ℕ)
  | load
  | done (r : Except Fault Picture)

/-- The cached file and the processes. -/
structure State where
  file : Option Bytes
  pc : ℕ → Pc

/-- Writing `d` at position `o` of a file: a gap in front of it reads as zeros. -/
def writeAt (f : Bytes) (o : ℕ) (d : Bytes) : Bytes := (f ++ List.replicate (o - f.length) 0).take o ++ d ++ f.drop (o + d.length)

/-- One step of process `t` in `load_mola_elevation`, utils.py 76-85; a step that writes brings at most `n` bytes to the file. -/
def step (W : World) (t n : ℕ) (s : State) : State :=
  match s.pc t with
  | .check => { s with pc := Function.update s.pc t (if s.file = none then .connect else .load) }
  | .connect => { s with pc := Function.update s.pc t (if W.connect t then .opening else .done (.error .network)) }
  | .opening => ⟨some [], Function.update s.pc t .read⟩
  | .read => { s with pc := Function.update s.pc t (match W.body t with
      | none => .done (.error .network)
      | some b => .write b 0) }
  | .write b o =>
    if b.length ≤ o then { s with pc := Function.update s.pc t .load }
    else ⟨s.file.map fun f => writeAt f o ((b.drop o).take n), Function.update s.pc t (.write b (o + ((b.drop o).take n).length))⟩
  | .load => { s with pc := Function.update s.pc t (.done (match s.file with
      | none => .error .missing
      | some f => match W.decode f with
        | none => .error .unreadable
        | some p => .ok p)) }
  | .done _ => s

/-- The processes run. -/
def run (W : World) : List (ℕ × ℕ) → State → State
  | [], s => s
  | (t, n) :: l, s => run W l (step W t n s)

/-- All processes before their first step. -/
def start (file : Option Bytes) : State := ⟨file, fun _ => .check⟩

/-! ### The tensor -/

/-- The source of output index `i` in `F.interpolate(mode="bilinear", align_corners=False)` from `n` to `m` points: `max(0, (i + 1/2) n / m - 1/2)`. -/
noncomputable def source (n m i : ℕ) : ℝ := max 0 (((i : ℝ) + 1 / 2) * n / m - 1 / 2)

/-- The interpolation along one axis: the point below the source, the one after it unless there is none, and the weight of the latter. -/
noncomputable def lerp (n m : ℕ) (f : ℕ → ℝ) (i : ℕ) : ℝ :=
  let k := ⌊source n m i⌋₊
  let k1 := if k < n - 1 then k + 1 else k
  (1 - (source n m i - k)) * f k + (source n m i - k) * f k1

/-- The tensor, utils.py 85-100: grey values divided by 255, interpolated only if both sizes are given. Sizes that are not positive raise. (Rounding to single precision is
left out.) -/
noncomputable def tensor (p : Picture) (nlat nlon : Option ℤ) : Except PyErr (ℕ × ℕ × (ℕ → ℕ → ℝ)) :=
  let data := fun i j => (p.val i j : ℝ) / 255
  match nlat, nlon with
  | some h, some w =>
    if h ≤ 0 ∨ w ≤ 0 then .error .runtimeError
    else .ok (h.toNat, w.toNat, fun i j => lerp p.h h.toNat (fun k => lerp p.w w.toNat (fun l => data k l) j) i)
  | _, _ => .ok (p.h, p.w, data)

end Verif.Elevation
