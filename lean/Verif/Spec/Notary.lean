import Verif.Spec.Publish
/-!
# Specification: what is recorded in a block
-/
namespace Verif.Spec
open Verif

/-- One of the outputs of one of the transactions with these bytes is data, and `part` is one of its items. -/
def Recorded (bodies : List Bytes) (part : Bytes) : Prop :=
  ∃ b ∈ bodies, ∃ t, IsTx MinCompactSize t b ∧ ∃ o ∈ t.Outputs, DataScript o.LockingScript ∧ ∃ ps, PartsOf o.LockingScript ps ∧ part ∈ ps

end Verif.Spec
