import Verif.Spec.Digest
/-!
# Specification: how many bytes are hashed for a signature digest

From the published algorithm with nothing kept between inputs: the strings behind the three inner hashes, where the flag asks for them, and the preimage itself (whose ten fields have 4, 32, 32, 36, variable,
8, 4, 32, 4 and 4 bytes).
-/
namespace Verif.Spec
open Verif

/-- The bytes hashed for the digest of one input. -/
def digestWork (tx : Transaction) (idx : Nat) (flag : UInt8) (inp : Input) (code : Bytes) : Nat :=
  (if anyoneCanPay flag then 0 else (prevoutsString tx).length) +
  (if anyoneCanPay flag || isNone flag || isSingle flag then 0 else (sequenceString tx).length) +
  ((outputsString tx idx flag).getD []).length +
  (120 + (outpoint inp).length + (compactSize code.length).length + code.length)

/-- The size of the outputs of a transaction as they are hashed. -/
def outputsSize (tx : Transaction) : Nat := (tx.Outputs.flatMap outputBytes).length

end Verif.Spec
