import Verif.Model.Tx
/-!
# Specification: what a transaction-building call adds

Independent of the builder functions: a call adds at most one input or one output, given here in closed form.
-/
namespace Verif.Spec
open Verif

/-- The four calls that grow a transaction. -/
inductive Call where
  | addInput (i : Input)
  | fromUtxo (txid : Bytes) (vout : UInt32) (scriptHex : Bytes) (sats : UInt64)
  | addOutput (o : Output)
  | payTo (addr : Bytes) (sats : UInt64)

/-- A string of an even number of hex digits. -/
def IsHexString (s : Bytes) : Prop := s.length % 2 = 0 ∧ ∀ c ∈ s, (48 ≤ c ∧ c ≤ 57) ∨ (97 ≤ c ∧ c ≤ 102) ∨ (65 ≤ c ∧ c ≤ 70)

instance (s : Bytes) : Decidable (IsHexString s) := by unfold IsHexString; infer_instance

/-- The Base58 text decodes to 25 bytes starting with a main-net (0) or test-net (111) version byte. -/
def IsAddressLike (a : Bytes) : Prop :=
  (base58Decode a).length = 25 ∧ ((base58Decode a).head? = some 0 ∨ (base58Decode a).head? = some 0x6f)

instance (s : Bytes) : Decidable (IsAddressLike s) := by unfold IsAddressLike; infer_instance

/-- The call is well-formed and so must succeed. -/
def Call.wellFormed : Call → Prop
  | .addInput _ => True
  | .fromUtxo _ _ s _ => IsHexString s
  | .addOutput _ => True
  | .payTo a _ => IsAddressLike a

instance : (c : Call) → Decidable c.wellFormed
  | .addInput _ => .isTrue trivial
  | .fromUtxo _ _ s _ => inferInstanceAs (Decidable (IsHexString s))
  | .addOutput _ => .isTrue trivial
  | .payTo a _ => inferInstanceAs (Decidable (IsAddressLike a))

/-- The inputs a well-formed call adds. -/
def Call.ins : Call → List Input
  | .addInput i => [i]
  | .fromUtxo t v s sats =>
    [{ PreviousTxID := t, PreviousTxOutIndex := v, PreviousTxSatoshis := sats, PreviousTxScript := some (hexDecodeIgnore s),
       UnlockingScript := none, SequenceNumber := 0xffffffff }]
  | .addOutput _ => []
  | .payTo _ _ => []

/-- The outputs a well-formed call adds: `payTo` pays to the 20 bytes after the version byte. -/
def Call.outs : Call → List Output
  | .addInput _ => []
  | .fromUtxo _ _ _ _ => []
  | .addOutput o => [o]
  | .payTo a sats => [⟨sats, [0x76, 0xa9, 0x14] ++ ((base58Decode a).drop 1).take 20 ++ [0x88, 0xac]⟩]

/-- The null outpoint: a zero txid (64 hex zeros) and index 2^32 - 1. -/
def IsNullOutpoint (i : Input) : Prop := i.PreviousTxID = List.replicate 64 48 ∧ i.PreviousTxOutIndex.toNat = 2 ^ 32 - 1

end Verif.Spec
