import Verif.Spec.Authorise
/-!
# Specification: an escrow

What each of the owners of the keys in a list has a say in.
-/
namespace Verif.Spec
open Verif

/-- What is known of the owner of the key `pub`: nobody but the owner can make signatures for it, and the owner has signed only the inputs in `signed` (number and transaction), with the flag `flag`. -/
structure Owner (H : HashFns) (verify : Bytes → Bytes → Bytes → Bool) (pub : Bytes) (flag : UInt8) (signed : List (Transaction × Nat)) : Prop where
  only : OnlySigned H verify pub flag signed
  sized : ∀ q ∈ signed, Sized q.1 ∧ ∀ i ∈ q.1.Inputs, IsTxId i.PreviousTxID

/-- An owner who has signed the inputs in `signed` with `flag` has agreed that input `j` of `tx` spends `c`; or two different strings with the same hash are at hand. -/
def Agreed (H : HashFns) (flag : UInt8) (signed : List (Transaction × Nat)) (tx : Transaction) (j : Nat) (c : Coin) : Prop :=
  (∃ q ∈ signed, Authorises flag q.1 q.2 tx j c) ∨ ∃ q ∈ signed, DigestCollision H flag q.1 q.2 tx j c

end Verif.Spec
