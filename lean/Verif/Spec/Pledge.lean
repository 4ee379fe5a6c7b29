import Verif.Spec.Ledger
/-!
# Specification: contributions to a common payment
-/
namespace Verif.Spec
open Verif

/-- The calls of `From` for some coins. -/
def coinCalls (coins : List WalletCoin) : List Call := coins.map fun w => .fromUtxo w.txid w.vout w.scriptHex w.sats

/-- What is to be paid: calls of `PayTo` with addresses and of `AddOutput`. -/
def GoalCall : Call → Prop
  | .payTo a _ => IsAddressLike a
  | .addOutput o => o.LockingScript.length < 2 ^ 64
  | _ => False

/-- A coin as its owner, who has the key with hash `h`, knows it: an unspent output that pays to the key. -/
def CoinOf (L : Ledger) (h : Bytes) (w : WalletCoin) : Prop :=
  IsTxId w.txid ∧ IsHexString w.scriptHex ∧ hexDecodeIgnore w.scriptHex = p2pkh h ∧ L w.key = some ⟨w.sats, p2pkh h⟩

end Verif.Spec
