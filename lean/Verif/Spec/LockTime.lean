import Verif.Spec.Authorise
/-!
# Specification: lock times

When a transaction is final, from the consensus rules: a lock time below 500000000 is a block height, above it is a time in seconds; it has no effect if all sequence
numbers are 0xffffffff. `NodeAcceptsAt` is `NodeAccepts` (Spec/Ledger) with this rule in place of "final whatever height and time".
-/
namespace Verif.Spec
open Verif

/-- `tx` may be in a block of height `height`, the time of which (the median of the blocks before) is `time`. -/
def Final (height time : Nat) (tx : Transaction) : Prop :=
  tx.Locktime = 0 ∨ (tx.Locktime.toNat < 500000000 ∧ tx.Locktime.toNat < height) ∨ (500000000 ≤ tx.Locktime.toNat ∧ tx.Locktime.toNat < time) ∨
    ∀ i ∈ tx.Inputs, i.SequenceNumber = 0xffffffff

/-- The checks on a transaction but for its finality. -/
structure SoundTx (H : HashFns) (verify : Bytes → Bytes → Bytes → Bool) (L : Ledger) (tx : Transaction) : Prop where
  inputs : tx.Inputs ≠ []
  outputs : tx.Outputs ≠ []
  distinct : (tx.Inputs.map outpoint).Nodup
  spends : ∀ k inp, tx.Inputs[k]? = some inp → ∃ c, L (outpoint inp) = some c ∧ Accepted H verify tx k c.script c.sats
  range : valueIn L tx ≤ maxMoney ∧ valueOut tx ≤ maxMoney
  funded : valueOut tx ≤ valueIn L tx

/-- A node that works on a block of this height and time, with unspent outputs `L`, accepts the bytes `b` of a transaction and has `L'` afterwards. -/
def NodeAcceptsAt (H : HashFns) (verify : Bytes → Bytes → Bytes → Bool) (height time : Nat) (L : Ledger) (b : Bytes) (L' : Ledger) : Prop :=
  b.length ≤ maxTxBytes ∧ (∀ n < 2 ^ 32, L (H.sha256 (H.sha256 b) ++ leBytes 4 n) = none) ∧
    ∃ tx, IsTx MinCompactSize tx b ∧ SoundTx H verify L tx ∧ Final height time tx ∧ L' = L.after (H.sha256 (H.sha256 b)) tx

/-- A call as in `PaymentCall`, or `AddInput` of an unspent output of one of the keys, correctly described, with any sequence number. -/
def LockedCall (L : Ledger) (hashes : List Bytes) : Call → Prop
  | .addInput i => IsTxId i.PreviousTxID ∧ ∃ h ∈ hashes, i.PreviousTxScript = some (p2pkh h) ∧ L (outpoint i) = some ⟨i.PreviousTxSatoshis, p2pkh h⟩
  | c => PaymentCall L hashes c

/-- Something is spent, something is paid, nothing is spent twice, and no more is paid than spent, which is no more than there can be. -/
structure Balanced (ins : List Input) (outs : List Output) : Prop where
  spends : ins ≠ []
  pays : outs ≠ []
  distinct : (ins.map outpoint).Nodup
  range : (ins.map (·.PreviousTxSatoshis.toNat)).sum ≤ maxMoney
  funded : (outs.map (·.Satoshis.toNat)).sum ≤ (ins.map (·.PreviousTxSatoshis.toNat)).sum

/-- Accepted one after the other, each at its height and time. -/
def NodeAcceptsAllAt (H : HashFns) (verify : Bytes → Bytes → Bytes → Bool) : Ledger → List (Nat × Nat × Bytes) → Ledger → Prop
  | L, [], L' => L' = L
  | L, (h, t, b) :: rest, L' => ∃ L1, NodeAcceptsAt H verify h t L b L1 ∧ NodeAcceptsAllAt H verify L1 rest L'

end Verif.Spec
