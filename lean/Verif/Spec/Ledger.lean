import Verif.Spec.Interp
import Verif.Spec.TxFormat
import Verif.Spec.TxHistory
/-!
# Specification: what a node checks before it accepts a transaction, and what it does with it

Written from the consensus rules (after Genesis), independent of the library: the unspent outputs a node knows, the checks on a transaction in wire form, and the unspent
outputs afterwards. Not covered: coinbase transactions and their maturity, and locks by height or time (a locktime of 0 or final sequence numbers make a transaction final
at once; other transactions are not called valid here).
-/
namespace Verif.Spec
open Verif

/-- An unspent output. -/
structure Coin where
  sats : UInt64
  script : Bytes

/-- The unspent outputs, by outpoint in wire form: 32 bytes of transaction hash and 4 bytes of index. -/
abbrev Ledger := Bytes → Option Coin

/-- No more than 21 million coins of 10^8 satoshis. -/
def maxMoney : Nat := 21000000 * 100000000

/-- The most bytes of a transaction. -/
def maxTxBytes : Nat := 1000000000

/-- What the unspent outputs that the inputs of `tx` name are worth. -/
def valueIn (L : Ledger) (tx : Transaction) : Nat := (tx.Inputs.map fun i => match L (outpoint i) with | some c => c.sats.toNat | none => 0).sum

/-- What the outputs of `tx` are worth. -/
def valueOut (tx : Transaction) : Nat := (tx.Outputs.map (·.Satoshis.toNat)).sum

/-- The checks on a transaction, given the unspent outputs. -/
structure ValidTx (H : HashFns) (verify : Bytes → Bytes → Bytes → Bool) (L : Ledger) (tx : Transaction) : Prop where
  /-- something is spent -/
  inputs : tx.Inputs ≠ []
  /-- something is paid -/
  outputs : tx.Outputs ≠ []
  /-- no output is spent twice -/
  distinct : (tx.Inputs.map outpoint).Nodup
  /-- every input spends an unspent output and is accepted by its script -/
  spends : ∀ k inp, tx.Inputs[k]? = some inp → ∃ c, L (outpoint inp) = some c ∧ Accepted H verify tx k c.script c.sats
  /-- amounts are in range -/
  range : valueIn L tx ≤ maxMoney ∧ valueOut tx ≤ maxMoney
  /-- no money is made -/
  funded : valueOut tx ≤ valueIn L tx
  /-- the transaction is final -/
  final : tx.Locktime = 0 ∨ ∀ i ∈ tx.Inputs, i.SequenceNumber = 0xffffffff

/-- The outputs that a transaction with hash `hash` makes. -/
def created (hash : Bytes) (tx : Transaction) : List (Bytes × Coin) := tx.Outputs.mapIdx fun n o => (hash ++ leBytes 4 n, ⟨o.Satoshis, o.LockingScript⟩)

/-- The unspent outputs after a transaction: its outputs are there, what it spends is gone. -/
def Ledger.after (L : Ledger) (hash : Bytes) (tx : Transaction) : Ledger := fun key =>
  match (created hash tx).lookup key with
  | some c => some c
  | none => if key ∈ tx.Inputs.map outpoint then none else L key

/-- A node with unspent outputs `L` accepts the bytes `b` of a transaction and has `L'` afterwards. No unspent output may be of a transaction with the same hash. -/
def NodeAccepts (H : HashFns) (verify : Bytes → Bytes → Bytes → Bool) (L : Ledger) (b : Bytes) (L' : Ledger) : Prop :=
  b.length ≤ maxTxBytes ∧ (∀ n < 2 ^ 32, L (H.sha256 (H.sha256 b) ++ leBytes 4 n) = none) ∧
    ∃ tx, IsTx MinCompactSize tx b ∧ ValidTx H verify L tx ∧ L' = L.after (H.sha256 (H.sha256 b)) tx

/-- The outpoint of output `v` of the transaction with id `t` (in hex, as it is shown). -/
def outpointOf (t : Bytes) (v : UInt32) : Bytes := (hexDecodeIgnore t).reverse ++ leBytes 4 v.toNat

/-- A call as a payment from keys with the hashes `hashes` makes it: `From` for an unspent output that pays to one of the keys, with its id, index, script and amount; `PayTo` for
an address; `AddOutput` for any other output. -/
def PaymentCall (L : Ledger) (hashes : List Bytes) : Call → Prop
  | .fromUtxo t v s sats => IsTxId t ∧ ∃ h ∈ hashes, IsHexString s ∧ hexDecodeIgnore s = p2pkh h ∧ L (outpointOf t v) = some ⟨sats, p2pkh h⟩
  | .payTo a _ => IsAddressLike a
  | .addOutput o => o.LockingScript.length < 2 ^ 64
  | .addInput _ => False

/-- The outpoint a call adds. -/
def Call.spent : Call → List Bytes
  | .fromUtxo t v _ _ => [outpointOf t v]
  | _ => []

/-- What a call adds to the input side. -/
def Call.amountIn : Call → Nat
  | .fromUtxo _ _ _ sats => sats.toNat
  | _ => 0

/-- What a call adds to the output side. -/
def Call.amountOut : Call → Nat
  | .payTo _ sats => sats.toNat
  | .addOutput o => o.Satoshis.toNat
  | _ => 0

/-- The calls spend something and pay something, spend nothing twice, and pay no more than they spend, which is no more than there can be. -/
structure Payable (calls : List Call) : Prop where
  spends : ∃ c ∈ calls, c.spent ≠ []
  pays : ∃ c ∈ calls, c.outs ≠ []
  distinct : (calls.flatMap Call.spent).Nodup
  range : (calls.map Call.amountIn).sum ≤ maxMoney
  funded : (calls.map Call.amountOut).sum ≤ (calls.map Call.amountIn).sum

/-! ## A wallet -/

/-- What a wallet remembers of an unspent output, as it gives it to `From`. -/
structure WalletCoin where
  txid : Bytes
  vout : UInt32
  scriptHex : Bytes
  sats : UInt64
  deriving DecidableEq

/-- Where the coin is in the ledger. -/
def WalletCoin.key (w : WalletCoin) : Bytes := outpointOf w.txid w.vout

/-- A payment: the coins it spends and the addresses it pays (the change is one of them). -/
structure Payment where
  spend : List WalletCoin
  pay : List (Bytes × UInt64)

/-- The calls that make it. -/
def Payment.calls (p : Payment) : List Call := p.spend.map (fun w => .fromUtxo w.txid w.vout w.scriptHex w.sats) ++ p.pay.map fun a => .payTo a.1 a.2

/-- The wallet's coins are unspent outputs of the ledger, each remembered once, and pay to one of the wallet's keys. -/
def Backed (hashes : List Bytes) (W : List WalletCoin) (L : Ledger) : Prop :=
  (W.map WalletCoin.key).Nodup ∧ ∀ w ∈ W, IsTxId w.txid ∧ ∃ h ∈ hashes, IsHexString w.scriptHex ∧ hexDecodeIgnore w.scriptHex = p2pkh h ∧ L w.key = some ⟨w.sats, p2pkh h⟩

/-- A payment that can be made: of some coins of the wallet, each once, to at least one address, of no more than the coins are worth. -/
structure Affordable (W : List WalletCoin) (p : Payment) : Prop where
  spend : p.spend ≠ [] ∧ p.spend.Nodup ∧ ∀ w ∈ p.spend, w ∈ W
  pay : p.pay ≠ [] ∧ ∀ a ∈ p.pay, IsAddressLike a.1
  size : p.spend.length + p.pay.length < 2 ^ 31
  range : (p.spend.map (·.sats.toNat)).sum ≤ maxMoney
  funded : (p.pay.map (·.2.toNat)).sum ≤ (p.spend.map (·.sats.toNat)).sum

end Verif.Spec
