import Verif.Model.Activations

/-! Model of `relu_prime` of `/repo/src/decomon/utils.py`; the other derivatives are in Model/Activations.lean. -/

namespace Decomon

/-- Models `relu_prime`, utils.py:24-34. -/
def reluPrime {α : Type*} [Field α] [LinearOrder α] (x : α) : α := kclip (ksign x) 0 1

end Decomon
