import Verif.Model.Collectives
/-!
Model of `_PolarHaloExchangeFn` (primitives.py 1022-1163) for a registered polar group of size `P`.
`Vec` is the latitude dimension; `α` holds batch, channel and longitude.
-/
namespace Verif.Dist
open Verif

/-- Python `x[:r]`. -/
def Vec.takeFirst {α} (x : Vec α) (r : ℕ) : Vec α := ⟨min r x.len, x.val⟩

/-- Python `x[-r:]`: the last `r` entries; all of `x` when `r = 0` (because `-0 = 0`) or `r ≥ len`. -/
def Vec.takeLast {α} (x : Vec α) (r : ℕ) : Vec α :=
  if r = 0 then x else ⟨min r x.len, fun i => x.val (x.len - min r x.len + i)⟩

/-- A zero tensor of the given extent (`torch.zeros`). -/
def Vec.zeros {α} [Zero α] (n : ℕ) : Vec α := ⟨n, fun _ => 0⟩

/-- Neighbour in the group, `get_group_neighbors` 41-64: `(rank ± 1) mod P`. -/
def prevRank (P r : ℕ) : ℕ := (r + P - 1) % P
/-- See `prevRank`. -/
def nextRank (P r : ℕ) : ℕ := (r + 1) % P

/-- Point-to-point receive into a buffer of extent `n` of a message `m`: the extents must agree. -/
def recvInto {α} (n : ℕ) (m : Vec α) : Except PyErr (Vec α) :=
  if m.len = n then .ok m else .error .runtimeError

/-- `recv_top`, primitives.py 1055-1061: zeros, overwritten by the bottom rows of the previous rank if there is one. -/
def haloRecvTop {α} [Zero α] (P : ℕ) (x : ℕ → Vec α) (rLat r : ℕ) : Except PyErr (Vec α) :=
  if r > 0 then recvInto rLat ((x (prevRank P r)).takeLast rLat) else .ok (Vec.zeros rLat)

/-- `recv_bot`, primitives.py 1056-1064: zeros, overwritten by the top rows of the next rank if there is one. -/
def haloRecvBot {α} [Zero α] (P : ℕ) (x : ℕ → Vec α) (rLat r : ℕ) : Except PyErr (Vec α) :=
  if r + 1 < P then recvInto rLat ((x (nextRank P r)).takeFirst rLat) else .ok (Vec.zeros rLat)

/-- Forward, primitives.py 1038-1071: send the top rows to the previous rank and the bottom rows to the next one,
receive theirs, concatenate. -/
def haloForward {α} [Zero α] (P : ℕ) (x : ℕ → Vec α) (rLat r : ℕ) : Except PyErr (Vec α) := do
  let recvTop ← haloRecvTop P x rLat r
  let recvBot ← haloRecvBot P x rLat r
  return Vec.cat 3 (fun k => if k = 0 then recvTop else if k = 1 then x r else recvBot)

/-- Backward, primitives.py 1088-1139; `H r` is the saved local height of rank `r`, `dout` the incoming gradient. -/
def haloBackward {α} [AddCommMonoid α] (P : ℕ) (H : ℕ → ℕ) (dout : ℕ → Vec α) (rLat r : ℕ) : Vec α :=
  let dx0 : ℕ → α := fun i => (dout r).val (rLat + i)
  -- what the neighbours send back: prev rank's bottom halo gradient, next rank's top halo gradient
  let recvFromPrev : ℕ → α := fun i => (dout (prevRank P r)).val (rLat + H (prevRank P r) + i)
  let recvFromNext : ℕ → α := fun i => (dout (nextRank P r)).val i
  let dx1 : ℕ → α := if r > 0 then fun i => if i < rLat then dx0 i + recvFromPrev i else dx0 i else dx0
  let dx2 : ℕ → α := if r + 1 < P then
      fun i => if H r - rLat ≤ i then dx1 i + recvFromNext (i - (H r - rLat)) else dx1 i else dx1
  ⟨H r, dx2⟩

end Verif.Dist
