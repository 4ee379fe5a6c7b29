import Verif.Model.Tx
/-!
# Specification: the Bitcoin transaction wire format, as a grammar

Independent of the parser and of the serialiser (only the record types `Input`, `Output`, `Transaction` are shared with the model).
The grammar is parametrised by the relation `Num n b`, "`b` is an encoding of the number `n`": `CompactSize` admits every
variable-length encoding, `MinCompactSize` only the shortest.
-/
namespace Verif.Spec
open Verif

/-- `b` is a variable-length encoding of `n`: one byte below 0xfd, or a marker byte and 2, 4 or 8 little-endian bytes. -/
def CompactSize (n : Nat) (b : Bytes) : Prop :=
  (n < 0xfd ∧ b = [UInt8.ofNat n]) ∨ (n < 2 ^ 16 ∧ b = 0xfd :: leBytes 2 n) ∨
  (n < 2 ^ 32 ∧ b = 0xfe :: leBytes 4 n) ∨ (n < 2 ^ 64 ∧ b = 0xff :: leBytes 8 n)

/-- `b` is the shortest variable-length encoding of `n`. -/
def MinCompactSize (n : Nat) (b : Bytes) : Prop :=
  CompactSize n b ∧ ∀ b', CompactSize n b' → b.length ≤ b'.length

/-- `b` is a wire encoding of the input `i`: 32 bytes of previous txid (shown reversed, in lower-case hex), 4 bytes index, counted script,
4 bytes sequence. The wire format carries neither the previous amount nor the previous script. -/
def IsInput (Num : Nat → Bytes → Prop) (i : Input) (b : Bytes) : Prop :=
  ∃ txid count scr : Bytes, txid.length = 32 ∧ Num scr.length count ∧
    b = txid ++ leBytes 4 i.PreviousTxOutIndex.toNat ++ count ++ scr ++ leBytes 4 i.SequenceNumber.toNat ∧
    i.PreviousTxID = hexEncode txid.reverse ∧ i.UnlockingScript = some scr ∧ i.PreviousTxScript = none ∧ i.PreviousTxSatoshis = 0

/-- `b` is a wire encoding of the output `o`: 8 bytes of satoshis and a counted script. -/
def IsOutput (Num : Nat → Bytes → Prop) (o : Output) (b : Bytes) : Prop :=
  ∃ count : Bytes, Num o.LockingScript.length count ∧ b = leBytes 8 o.Satoshis.toNat ++ count ++ o.LockingScript

/-- `b` is the concatenation of encodings of the elements of `xs`, in order. -/
def IsSeq {α : Type} (P : α → Bytes → Prop) : List α → Bytes → Prop
  | [], b => b = []
  | x :: xs, b => ∃ b1 b2, P x b1 ∧ IsSeq P xs b2 ∧ b = b1 ++ b2

/-- `b` is a wire encoding of the transaction `tx`: version, counted inputs, counted outputs, locktime, and nothing else. -/
def IsTx (Num : Nat → Bytes → Prop) (tx : Transaction) (b : Bytes) : Prop :=
  ∃ ci bi co bo : Bytes, Num tx.Inputs.length ci ∧ IsSeq (IsInput Num) tx.Inputs bi ∧ Num tx.Outputs.length co ∧
    IsSeq (IsOutput Num) tx.Outputs bo ∧
    b = leBytes 4 tx.Version.toNat ++ ci ++ bi ++ co ++ bo ++ leBytes 4 tx.Locktime.toNat

/-- ASCII lower case of a hex digit. -/
def lowerChar (c : UInt8) : UInt8 := if 65 ≤ c ∧ c ≤ 70 then c + 32 else c

/-- What the wire format keeps of an input: the txid in lower case, the index, the unlocking script (a missing one is empty), the sequence. -/
def wireInput (i : Input) : Input :=
  { PreviousTxID := i.PreviousTxID.map lowerChar, PreviousTxOutIndex := i.PreviousTxOutIndex, PreviousTxSatoshis := 0, PreviousTxScript := none,
    UnlockingScript := some (i.UnlockingScript.getD []), SequenceNumber := i.SequenceNumber }

/-- What the wire format keeps of a transaction. -/
def wireTx (tx : Transaction) : Transaction := { tx with Inputs := tx.Inputs.map wireInput }

/-- A txid as users write it: 64 hex digits of either case. -/
def IsTxId (s : Bytes) : Prop := s.length = 64 ∧ ∀ c ∈ s, (48 ≤ c ∧ c ≤ 57) ∨ (97 ≤ c ∧ c ≤ 102) ∨ (65 ≤ c ∧ c ≤ 70)

instance (s : Bytes) : Decidable (IsTxId s) := by unfold IsTxId; infer_instance

end Verif.Spec
