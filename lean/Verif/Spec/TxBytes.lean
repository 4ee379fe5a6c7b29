import Verif.Spec.TxFormat
/-!
# Specification: what a transaction should be written as, whatever its txids are
-/
namespace Verif.Spec
open Verif

/-- A hex digit of either case. -/
def HexDigit (c : UInt8) : Prop := (48 ≤ c ∧ c ≤ 57) ∨ (97 ≤ c ∧ c ≤ 102) ∨ (65 ≤ c ∧ c ≤ 70)

instance (c : UInt8) : Decidable (HexDigit c) := by unfold HexDigit; infer_instance

/-- `d` are the bytes of the longest beginning of `t` that is made of pairs of hex digits. -/
def HexStart (t d : Bytes) : Prop :=
  ∃ p rest, t = p ++ rest ∧ p.length % 2 = 0 ∧ (∀ c ∈ p, HexDigit c) ∧ hexEncode d = p.map lowerChar ∧
    ∀ x y r, rest = x :: y :: r → ¬ (HexDigit x ∧ HexDigit y)

/-- What an input is written as: the bytes of its txid, as far as it is hex, backwards, the index, the script (a missing one is empty) behind its length, the sequence. -/
def LooseInput (i : Input) (b : Bytes) : Prop :=
  ∃ d count, HexStart i.PreviousTxID d ∧ MinCompactSize (i.UnlockingScript.getD []).length count ∧
    b = d.reverse ++ leBytes 4 i.PreviousTxOutIndex.toNat ++ count ++ i.UnlockingScript.getD [] ++ leBytes 4 i.SequenceNumber.toNat

/-- What a transaction is written as: version, counted inputs, counted outputs, locktime. -/
def LooseTx (tx : Transaction) (b : Bytes) : Prop :=
  ∃ ci bi co bo, MinCompactSize tx.Inputs.length ci ∧ IsSeq LooseInput tx.Inputs bi ∧ MinCompactSize tx.Outputs.length co ∧ IsSeq (IsOutput MinCompactSize) tx.Outputs bo ∧
    b = leBytes 4 tx.Version.toNat ++ ci ++ bi ++ co ++ bo ++ leBytes 4 tx.Locktime.toNat

/-- The number of bytes of a compact size. -/
def compactLen (n : Nat) : Nat := if n < 0xfd then 1 else if n < 2 ^ 16 then 3 else if n < 2 ^ 32 then 5 else 9

end Verif.Spec
