import Verif.Model.SigHash
import Verif.Spec.Interp
/-!
# Specification: keys that sign well, whatever their flag
-/
namespace Verif.Spec
open Verif

/-- A key pair that never fails to sign, whose signatures verify and have, like the key, sizes for which there is a push. Nothing is said of the flag. -/
def GoodKey (verify : Bytes → Bytes → Bytes → Bool) (is : InternalSigner) : Prop :=
  is.pubKey ≠ [] ∧ is.pubKey.length < 2 ^ 32 ∧ ∀ d, ∃ s, is.sign d = .ok s ∧ s.length + 1 < 2 ^ 32 ∧ verify is.pubKey d s = true

end Verif.Spec
