import Verif.Spec.Chain
/-!
# Specification: what belongs to a wallet's keys
-/
namespace Verif.Spec
open Verif

/-- The script pays to one of the keys. -/
def PaysTo (hashes : List Bytes) (script : Bytes) : Prop := script ∈ hashes.map p2pkh

instance (hashes : List Bytes) (script : Bytes) : Decidable (PaysTo hashes script) := inferInstanceAs (Decidable (script ∈ hashes.map p2pkh))

/-- The wallet sees its part of the ledger: its coins are unspent outputs that pay to its keys, and every unspent output that pays to its keys is among them. -/
def Sees (hashes : List Bytes) (W : List WalletCoin) (L : Ledger) : Prop :=
  Backed hashes W L ∧ ∀ key c, L key = some c → PaysTo hashes c.script → ∃ w ∈ W, w.key = key

/-- What the wallet's coins are worth. -/
def balance (W : List WalletCoin) : Nat := (W.map (·.sats.toNat)).sum

/-- The unspent outputs of the ledger that pay to the keys are worth `total`. -/
def Owns (hashes : List Bytes) (L : Ledger) (total : Nat) : Prop :=
  ∃ coins : List (Bytes × Coin), (coins.map (·.1)).Nodup ∧ (∀ key c, (key, c) ∈ coins ↔ L key = some c ∧ PaysTo hashes c.script) ∧ total = (coins.map (·.2.sats.toNat)).sum

/-- What the outputs of a transaction pay to the keys. -/
def paid (hashes : List Bytes) (tx : Transaction) : Nat := ((tx.Outputs.filter fun o => decide (PaysTo hashes o.LockingScript)).map (·.Satoshis.toNat)).sum

/-- What the inputs of a transaction take from the keys. -/
def taken (hashes : List Bytes) (L : Ledger) (tx : Transaction) : Nat :=
  (tx.Inputs.map fun i => match L (outpoint i) with | some c => if PaysTo hashes c.script then c.sats.toNat else 0 | none => 0).sum

/-- The contents of a block: a header of 80 bytes, the number of transactions and the transactions, each in wire form. -/
def BlockOf (b : Bytes) (txs : List Bytes) : Prop :=
  ∃ header count, header.length = 80 ∧ MinCompactSize txs.length count ∧ b = header ++ count ++ txs.flatten ∧ ∀ t ∈ txs, ∃ tx, IsTx MinCompactSize tx t

/-- The node accepts the blocks, one on top of the other; each is given with what the chain demands at that point. -/
def NodeAcceptsChain (H : HashFns) (verify : Bytes → Bytes → Bytes → Bool) : Ledger → List (Tip × Bytes) → Ledger → Prop
  | L, [], L' => L' = L
  | L, (tip, b) :: bs, L' => ∃ L1, NodeAcceptsBlock H verify tip L b L1 ∧ NodeAcceptsChain H verify L1 bs L'

end Verif.Spec
