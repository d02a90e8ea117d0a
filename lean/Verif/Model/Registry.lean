import Verif.Model.Basic
/-!
Model of the process-group registry, torch_harmonics/distributed/utils.py 37-209, and of the debug switch, 43-68.
`torch.distributed` is a parameter: an arbitrary state `W`, an arbitrary `destroy_process_group` that may raise, and arbitrary
`get_world_size` / `get_rank`. A Python exception leaves the module globals as they were when it was raised, so every call returns
the new globals and the outcome separately.
-/
namespace Verif.Reg

/-- What the registry uses of `torch.distributed` (external): its own state `W`, process groups `G`. -/
structure Backend (G W : Type) where
  /-- `dist.destroy_process_group(group)`: the state afterwards, and the exception if it raises. -/
  destroy : W → G → W × Option PyErr
  /-- `dist.get_world_size(group=group)` -/
  size : W → G → Except PyErr Int
  /-- `dist.get_rank(group=group)` -/
  rank : W → G → Except PyErr Int

/-- The module globals, utils.py 38-40. -/
structure Globals (G : Type) where
  polar : Option G
  azimuth : Option G
  isInit : Bool

/-- The globals when the module is imported, utils.py 38-40. -/
def start (G : Type) : Globals G := ⟨none, none, false⟩

variable {G W : Type}

/-- `init`, utils.py 83-140: both groups may be `None`. -/
def init (p a : Option G) (_s : Globals G) : Globals G := ⟨p, a, true⟩

/-- The first inner block of `finalize`, utils.py 156-158. -/
def dropPolar (B : Backend G W) (s : Globals G) (w : W) : Globals G × W × Option PyErr :=
  match s.polar with
  | none => (s, w, none)
  | some g =>
    match B.destroy w g with
    | (w', some e) => (s, w', some e)
    | (w', none) => ({ s with polar := none }, w', none)

/-- The second inner block of `finalize`, utils.py 159-161. -/
def dropAzimuth (B : Backend G W) (s : Globals G) (w : W) : Globals G × W × Option PyErr :=
  match s.azimuth with
  | none => (s, w, none)
  | some g =>
    match B.destroy w g with
    | (w', some e) => (s, w', some e)
    | (w', none) => ({ s with azimuth := none }, w', none)

/-- `finalize`, utils.py 143-162. -/
def finalize (B : Backend G W) (s : Globals G) (w : W) : Globals G × W × Option PyErr :=
  if s.isInit then
    match dropPolar B s w with
    | (s1, w1, some e) => (s1, w1, some e)
    | (s1, w1, none) =>
      match dropAzimuth B s1 w1 with
      | (s2, w2, some e) => (s2, w2, some e)
      | (s2, w2, none) => ({ s2 with isInit := false }, w2, none)
  else ({ s with isInit := false }, w, none)

/-- `polar_group`, utils.py 73-75. -/
def polarGroup (s : Globals G) : Option G := s.polar
/-- `azimuth_group`, utils.py 78-80. -/
def azimuthGroup (s : Globals G) : Option G := s.azimuth
/-- `is_initialized`, utils.py 165-167. -/
def isInitialized (s : Globals G) : Bool := s.isInit
/-- `is_distributed_polar`, utils.py 170-172. -/
def isDistributedPolar (s : Globals G) : Bool := s.polar.isSome
/-- `is_distributed_azimuth`, utils.py 175-177. -/
def isDistributedAzimuth (s : Globals G) : Bool := s.azimuth.isSome

/-- `polar_group_size`, utils.py 180-185. -/
def polarGroupSize (B : Backend G W) (s : Globals G) (w : W) : Except PyErr Int :=
  match s.polar with
  | none => .ok 1
  | some g => B.size w g
/-- `azimuth_group_size`, utils.py 188-193. -/
def azimuthGroupSize (B : Backend G W) (s : Globals G) (w : W) : Except PyErr Int :=
  match s.azimuth with
  | none => .ok 1
  | some g => B.size w g
/-- `polar_group_rank`, utils.py 196-201. -/
def polarGroupRank (B : Backend G W) (s : Globals G) (w : W) : Except PyErr Int :=
  match s.polar with
  | none => .ok 0
  | some g => B.rank w g
/-- `azimuth_group_rank`, utils.py 204-209. -/
def azimuthGroupRank (B : Backend G W) (s : Globals G) (w : W) : Except PyErr Int :=
  match s.azimuth with
  | none => .ok 0
  | some g => B.rank w g

/-- One event of a history: a call of the two functions that change the globals, or anything the rest of the process does to
`torch.distributed` between them. (The queries above change nothing.) -/
inductive Op (G W : Type) where
  | init (p a : Option G)
  | finalize
  | other (f : W → W)

/-- The state after one event; a raised exception is caught by the caller, who goes on with the globals left behind. -/
def step (B : Backend G W) (st : Globals G × W) : Op G W → Globals G × W
  | .init p a => (init p a st.1, st.2)
  | .finalize => let r := finalize B st.1 st.2; (r.1, r.2.1)
  | .other f => (st.1, f st.2)

/-- The state after a history, from the import of the module. -/
def run (B : Backend G W) (w : W) (h : List (Op G W)) : Globals G × W := h.foldl (step B) (start G, w)

/-! The debug switch, utils.py 43-68. -/

/-- `_DistributedConfig`, utils.py 43-64: `_debug` is `None` until it is set. -/
structure Config where
  dbg : Option Bool

/-- `_DistributedConfig.__init__`, utils.py 52-53. -/
def Config.start : Config := ⟨none⟩
/-- the getter, utils.py 55-59; `env` is the current value of `TORCH_HARMONICS_DISTRIBUTED_DEBUG`, if set. -/
def Config.debug (c : Config) (env : Option String) : Bool :=
  match c.dbg with
  | none => env.getD "0" == "1"
  | some b => b
/-- the setter, utils.py 61-63 (the argument is what `bool(value)` returns). -/
def Config.setDebug (_ : Config) (v : Bool) : Config := ⟨some v⟩

end Verif.Reg
