import Verif.Model.CudaToggle

/-!
# What CUDA algorithms should guarantee
-/

namespace Litiv.CudaToggle

/-- The device can be used: it exists and has the capabilities needed. -/
def Usable (env : Env) (id : Int) : Prop := 0 ≤ id ∧ id < env.count ∧ env.caps id = true

/-- The object has a device. -/
def Ready (env : Env) (a : Algo) : Prop := a.inited = true ∧ Usable env a.dev ∧ a.info = some a.dev

/-- The object has no device. -/
def Unset (a : Algo) : Prop := a.inited = false ∧ a.use = false ∧ a.dev = -1 ∧ a.info = none

/-- The device a call names, if any. -/
def Call.names : Call → Option Int
  | .construct _ id => some id
  | .tryInit _ id => some id
  | .enable _ _ => none

end Litiv.CudaToggle
