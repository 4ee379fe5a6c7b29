import Verif.Spec.Ledger
/-!
# Specification: what a key's signatures authorise

Independent of the signer code: which digest stands for "input `k` of `t`", what another transaction must have in common with `t` for this signature to be good for it,
and the two ways around it, both of which exhibit a collision of a hash function.
-/
namespace Verif.Spec
open Verif

/-- `d` is the digest that a signature with flag `flag` on input `k` of `t` is made for. -/
def Asked (H : HashFns) (flag : UInt8) (t : Transaction) (k : Nat) (d : Bytes) : Prop :=
  ∃ inp code, t.Inputs[k]? = some inp ∧ inp.PreviousTxScript = some code ∧ d = H.sha256 (H.sha256 (preimage (fun b => H.sha256 (H.sha256 b)) t k inp code flag))

/-- The signature on input `k` of `t` is meant for input `j` of `tx`, which spends `c`: what the flag covers is the same in both, and `t` has the script and the amount of `c`. -/
structure Authorises (flag : UInt8) (t : Transaction) (k : Nat) (tx : Transaction) (j : Nat) (c : Coin) : Prop where
  version : tx.Version = t.Version
  locktime : tx.Locktime = t.Locktime
  /-- the two inputs -/
  input : ∃ i i', tx.Inputs[j]? = some i ∧ t.Inputs[k]? = some i' ∧ outpoint i = outpoint i' ∧ i.SequenceNumber = i'.SequenceNumber ∧
    i'.PreviousTxScript = some c.script ∧ i'.PreviousTxSatoshis = c.sats
  /-- without ANYONECANPAY: the same inputs -/
  inputs : anyoneCanPay flag = false → tx.Inputs.map outpoint = t.Inputs.map outpoint
  /-- with ALL and without ANYONECANPAY: the same sequence numbers -/
  sequences : anyoneCanPay flag = false → isNone flag = false → isSingle flag = false → tx.Inputs.map (·.SequenceNumber) = t.Inputs.map (·.SequenceNumber)
  /-- with ALL: the same outputs -/
  outputs : isNone flag = false → isSingle flag = false → tx.Outputs = t.Outputs
  /-- with SINGLE: the same output at the position of the input -/
  single : isSingle flag = true → tx.Outputs[j]? = t.Outputs[k]?

/-- Input `j` of `tx` pushes a public key other than `pub` that has the same hash. -/
def KeyCollision (H : HashFns) (pub : Bytes) (tx : Transaction) (j : Nat) : Prop :=
  ∃ inp unl before pub', tx.Inputs[j]? = some inp ∧ inp.UnlockingScript = some unl ∧ Pushes unl (before ++ [pub']) ∧ pub' ≠ pub ∧
    H.ripemd160 (H.sha256 pub') = H.ripemd160 (H.sha256 pub)

/-- The strings hashed for the signature on input `k` of `t` and for checking input `j` of `tx`, which spends `c`, collide. -/
def DigestCollision (H : HashFns) (flag : UInt8) (t : Transaction) (k : Nat) (tx : Transaction) (j : Nat) (c : Coin) : Prop :=
  ∃ inp inp' code flag', tx.Inputs[j]? = some inp ∧ t.Inputs[k]? = some inp' ∧ inp'.PreviousTxScript = some code ∧
    Collision (fun b => H.sha256 (H.sha256 b)) (hashedStrings (fun b => H.sha256 (H.sha256 b)) tx j { inp with PreviousTxSatoshis := c.sats } c.script flag')
      (hashedStrings (fun b => H.sha256 (H.sha256 b)) t k inp' code flag)

/-- Nobody can make signatures that verify for `pub`, except by having the signer sign: the inputs in `signed` (number and transaction) are all that was ever signed, with flag `flag`. -/
def OnlySigned (H : HashFns) (verify : Bytes → Bytes → Bytes → Bool) (pub : Bytes) (flag : UInt8) (signed : List (Transaction × Nat)) : Prop :=
  ∀ d s, verify pub d s = true → ∃ q ∈ signed, Asked H flag q.1 q.2 d

/-- A call as a payment makes it, whatever it claims about the outputs it spends: `From` with an id and a script in hex, `PayTo` an address, `AddOutput`. -/
def BuildCall : Call → Prop
  | .fromUtxo t _ s _ => IsTxId t ∧ IsHexString s ∧ s.length < 2 ^ 64
  | .payTo a _ => IsAddressLike a
  | .addOutput o => o.LockingScript.length < 2 ^ 64
  | .addInput _ => False

end Verif.Spec
