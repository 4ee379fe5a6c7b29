import Verif.Model.Tx
/-!
# The transaction a coinbase should be
-/
namespace Verif.Spec
open Verif

/-- The coinbase script: a 3-byte push of the height, at most 84 bytes of text, the extra nonces. -/
def coinbaseScript (height : UInt32) (text e1 e2 : Bytes) : Bytes :=
  0x03 :: (leBytes 3 height.toNat ++ text.take 84 ++ hexDecodeIgnore e1 ++ hexDecodeIgnore e2)

/-- The outputs: the payment, then zero-value outputs for the commitment and the miner id if they are not empty. -/
def coinbaseOutputs (value : UInt64) (lock commitment minerID : Bytes) : List Output :=
  [⟨value, lock⟩] ++ (if commitment = [] then [] else [⟨0, hexDecodeIgnore commitment⟩]) ++ (if minerID = [] then [] else [⟨0, minerID⟩])

/-- The input: the null outpoint and the coinbase script. -/
def coinbaseInput (height : UInt32) (text e1 e2 : Bytes) : Input :=
  { PreviousTxID := List.replicate 64 48, PreviousTxOutIndex := 0xffffffff, PreviousTxSatoshis := 0, PreviousTxScript := none,
    UnlockingScript := some (coinbaseScript height text e1 e2), SequenceNumber := 0xffffffff }

/-- The transaction a coinbase stands for. -/
def coinbaseTx (height : UInt32) (value : UInt64) (commitment text lock minerID e1 e2 : Bytes) : Transaction :=
  { Version := 1, Locktime := 0,
    Inputs := [coinbaseInput height text e1 e2],
    Outputs := coinbaseOutputs value lock commitment minerID }

end Verif.Spec
