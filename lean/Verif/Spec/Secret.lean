import Verif.Spec.Ledger
/-!
# Specification: what is read from a script that pushes
-/
namespace Verif.Spec
open Verif

/-- `p` is, as one byte, an opcode that pushes `x`: OP_0 (nothing), OP_1NEGATE (minus one) or OP_1 to OP_16. -/
def OpcodeFor (p x : Bytes) : Prop :=
  (p = [0x00] ∧ x = []) ∨ (p = [0x4f] ∧ x = [0x81]) ∨ ∃ n : Nat, 1 ≤ n ∧ n ≤ 16 ∧ p = [UInt8.ofNat (0x50 + n)] ∧ x = [UInt8.ofNat n]

end Verif.Spec
