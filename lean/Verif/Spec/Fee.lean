import Verif.Spec.Ledger
import Verif.Spec.TxBytes
/-!
# Specification: fees

A node relays a transaction only if it pays enough for its size; what a wallet can say of the size before it signs.
-/
namespace Verif.Spec
open Verif

/-- The bytes of an output. -/
def outputSize (o : Output) : Nat := 8 + compactLen o.LockingScript.length + o.LockingScript.length

/-- The size of the transaction that the calls make, if an input takes `perInput` bytes once it is signed. -/
def estimate (perInput : Nat) (calls : List Call) : Nat :=
  8 + compactLen (calls.flatMap Call.spent).length + (calls.flatMap Call.spent).length * perInput +
    compactLen (calls.flatMap Call.outs).length + ((calls.flatMap Call.outs).map outputSize).sum

/-- What the calls leave for the miner. -/
def feeOf (calls : List Call) : Nat := (calls.map Call.amountIn).sum - (calls.map Call.amountOut).sum

/-- A node that demands `rate` satoshis per 1000 bytes takes the bytes `b` of a transaction: it accepts them, and what the spent outputs are worth more than the new ones is enough. -/
def NodeRelays (H : HashFns) (verify : Bytes → Bytes → Bytes → Bool) (rate : Nat) (L : Ledger) (b : Bytes) (L' : Ledger) : Prop :=
  NodeAccepts H verify L b L' ∧ ∃ tx, IsTx MinCompactSize tx b ∧ rate * b.length ≤ 1000 * (valueIn L tx - valueOut tx)

/-- The size of a payment of `n` coins to `m` addresses. -/
def paymentSize (perInput n m : Nat) : Nat := 8 + compactLen n + n * perInput + compactLen m + m * 34

/-- The payment with the change to address `a`, after a fee of `fee` satoshis. -/
def Payment.withChange (p : Payment) (a : Bytes) (fee : Nat) : Payment :=
  ⟨p.spend, p.pay ++ [(a, UInt64.ofNat ((p.spend.map (·.sats.toNat)).sum - (p.pay.map (·.2.toNat)).sum - fee))]⟩

/-- The fee for `size` bytes at `rate` satoshis per 1000, rounded up. -/
def feeFor (rate size : Nat) : Nat := (rate * size + 999) / 1000

end Verif.Spec
