import Verif.Model.SpectralConv
import Verif.Model.CollectiveGrad
/-!
Distributed tensors on a two-dimensional process grid, `torch_harmonics/distributed`.

A local tensor is seen along (leading, latitude, longitude), `Ten3`; `Pp` and `Pa` are the sizes of the polar and azimuth groups. The
state of the grid is a family `polar rank ↦ azimuth rank ↦ local tensor`. Ranks run the same program; the model advances all ranks
together from one statement to the next, which is the meaning of blocking collectives. A run in which some rank raises has no result.
-/
namespace Verif.Dist
open Verif Verif.SHT

/-- The first error raised on the process grid, if any. -/
def firstError {β : Type} (Pp Pa : ℕ) (f : ℕ → ℕ → Except PyErr β) : Option PyErr :=
  (List.range Pp).findSome? fun p => (List.range Pa).findSome? fun a =>
    match f p a with
    | .error e => some e
    | .ok _ => none

/-- One statement, run on every rank of the grid. -/
def collect {β : Type} (Pp Pa : ℕ) (f : ℕ → ℕ → Except PyErr β) : Except PyErr (ℕ → ℕ → β) :=
  match firstError Pp Pa f with
  | some e => .error e
  | none =>
    match f 0 0 with
    | .error e => .error e
    | .ok y0 => .ok fun p a =>
      match f p a with
      | .error _ => y0
      | .ok y => y

/-- The first and last dimension of a tensor, as the two dimensions that a transpose acts on. -/
def view02 {α : Type} (x : Ten3 α) : Mat (ℕ → α) := ⟨x.d0, x.d2, fun i k j => x.val i j k⟩

/-- Inverse of `view02`; `d1` is the extent of the middle dimension. -/
def unview02 {α : Type} (d1 : ℕ) (m : Mat (ℕ → α)) : Ten3 α := ⟨m.d0, d1, m.d1, fun i j k => m.val i k j⟩

/-- The first and middle dimension of a tensor. -/
def view01 {α : Type} (x : Ten3 α) : Mat (ℕ → α) := ⟨x.d0, x.d1, x.val⟩

/-- Inverse of `view01`; `d2` is the extent of the last dimension. -/
def unview01 {α : Type} (d2 : ℕ) (m : Mat (ℕ → α)) : Ten3 α := ⟨m.d0, m.d1, d2, m.val⟩

/-- `distributed_transpose_azimuth(x, (-3, -1), sizes)`, primitives.py 280-289, on rank `r` of a group of size `P`. -/
def trans02 {α : Type} (P : ℕ) (x : ℕ → Ten3 α) (sizes : List ℕ) (r : ℕ) : Except PyErr (Ten3 α) :=
  match distTransposeForward P (fun s => view02 (x s)) sizes r with
  | .error e => .error e
  | .ok y => .ok (unview02 (x r).d1 y)

/-- `distributed_transpose_azimuth(x, (-1, -3), sizes)`. -/
def trans20 {α : Type} (P : ℕ) (x : ℕ → Ten3 α) (sizes : List ℕ) (r : ℕ) : Except PyErr (Ten3 α) :=
  match distTransposeForward P (fun s => (view02 (x s)).swap) sizes r with
  | .error e => .error e
  | .ok y => .ok (unview02 (x r).d1 y.swap)

/-- `distributed_transpose_polar(x, (-3, -2), sizes)`, primitives.py 316-325. -/
def trans01 {α : Type} (P : ℕ) (x : ℕ → Ten3 α) (sizes : List ℕ) (r : ℕ) : Except PyErr (Ten3 α) :=
  match distTransposeForward P (fun s => view01 (x s)) sizes r with
  | .error e => .error e
  | .ok y => .ok (unview01 (x r).d2 y)

/-- `distributed_transpose_polar(x, (-2, -3), sizes)`. -/
def trans10 {α : Type} (P : ℕ) (x : ℕ → Ten3 α) (sizes : List ℕ) (r : ℕ) : Except PyErr (Ten3 α) :=
  match distTransposeForward P (fun s => (view01 (x s)).swap) sizes r with
  | .error e => .error e
  | .ok y => .ok (unview01 (x r).d2 y.swap)

/-- `if comm_size_azimuth > 1: x = distributed_transpose_azimuth(x, (-3, -1), sizes)` on rank `(p, a)`. -/
def azimuthIn {α : Type} (Pa : ℕ) (x : ℕ → ℕ → Ten3 α) (sizes : List ℕ) (p a : ℕ) : Except PyErr (Ten3 α) :=
  if Pa > 1 then trans02 Pa (x p) sizes a else .ok (x p a)

/-- `if comm_size_azimuth > 1: chan_shapes = compute_split_shapes(num_chans, comm_size_azimuth);
x = distributed_transpose_azimuth(x, (-1, -3), chan_shapes)`. -/
def azimuthOut {α : Type} (Pa : ℕ) (x : ℕ → ℕ → Ten3 α) (numChans : ℕ) (p a : ℕ) : Except PyErr (Ten3 α) :=
  if Pa > 1 then
    match computeSplitShapes numChans Pa with
    | .error e => .error e
    | .ok sh => trans20 Pa (x p) sh a
  else .ok (x p a)

/-- `if comm_size_polar > 1: x = distributed_transpose_polar(x, (-3, -2), sizes)`. -/
def polarIn {α : Type} (Pp : ℕ) (x : ℕ → ℕ → Ten3 α) (sizes : List ℕ) (p a : ℕ) : Except PyErr (Ten3 α) :=
  if Pp > 1 then trans01 Pp (fun s => x s a) sizes p else .ok (x p a)

/-- `if comm_size_polar > 1: chan_shapes = compute_split_shapes(num_chans, comm_size_polar);
x = distributed_transpose_polar(x, (-2, -3), chan_shapes)`. -/
def polarOut {α : Type} (Pp : ℕ) (x : ℕ → ℕ → Ten3 α) (numChans : ℕ) (p a : ℕ) : Except PyErr (Ten3 α) :=
  if Pp > 1 then
    match computeSplitShapes numChans Pp with
    | .error e => .error e
    | .ok sh => trans10 Pp (fun s => x s a) sh p
  else .ok (x p a)

/-- A tensor with any number of leading dimensions and two trailing ones. -/
structure LTen (α : Type) where
  lead : List ℕ
  d1 : ℕ
  d2 : ℕ
  val : List ℕ → ℕ → ℕ → α

/-- `flatten_and_pad_leading_dims`, primitives.py 169-213: the flattened and padded tensor, and the true leading size. -/
def flattenPad {α : Type} [Zero α] (x : LTen α) (minLeading : ℕ) : Ten3 α × ℕ :=
  let v := padLeading (⟨x.lead.prod, fun i => x.val (unflatIndex x.lead i)⟩ : Vec (ℕ → ℕ → α)) minLeading
  (⟨v.1.len, x.d1, x.d2, v.1.val⟩, v.2)

/-- `unpad_and_unflatten_leading_dims`, primitives.py 216-224. -/
def unpadUnflatten {α : Type} (x : Ten3 α) (lead : List ℕ) (leadSize : ℕ) : Except PyErr (LTen α) :=
  match unpadLeading (⟨x.d0, x.val⟩ : Vec (ℕ → ℕ → α)) leadSize with
  | .error e => .error e
  | .ok v => .ok ⟨lead, x.d1, x.d2, fun idx => v.val (flatIndex lead idx)⟩

end Verif.Dist
