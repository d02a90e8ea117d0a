/-!
Shared vocabulary of the model: Python exceptions as values.
-/
namespace Verif

/-- Python/torch exceptions that the modelled functions can raise. -/
inductive PyErr where
  | valueError        -- `raise ValueError(...)`
  | runtimeError      -- `torch._check(...)` failing, shape mismatches inside torch
  | notImplemented    -- `raise NotImplementedError(...)`
  | zeroDivision      -- Python `ZeroDivisionError`
  | indexError        -- `IndexError`
  | keyError          -- `KeyError`
  | assertionError    -- `assert ...` failing
  | typeError         -- `TypeError`
  | attributeError    -- `AttributeError`
  | nameError         -- `NameError`, with its subclass `UnboundLocalError`
  | processExit       -- `exit(EXIT_FAILURE)` in C++ code
  | memoryFault       -- access outside an array in C++ or CUDA code (undefined behaviour, not an exception)
  deriving DecidableEq, Repr

end Verif
