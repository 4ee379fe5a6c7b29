import Verif.Spec.Digest
import Verif.Spec.Tokens
/-!
# Specification: signing pay-to-public-key-hash inputs

Independent of the signer code: what a push looks like, which unlocking script a signature gives, which inputs a key can sign.
-/
namespace Verif.Spec
open Verif

/-- The shortest push of `d` (for 1 to 2^32 - 1 bytes). -/
def push (d : Bytes) : Bytes :=
  if d.length ≤ 75 then UInt8.ofNat d.length :: d
  else if d.length < 2 ^ 8 then [0x4c] ++ leBytes 1 d.length ++ d
  else if d.length < 2 ^ 16 then [0x4d] ++ leBytes 2 d.length ++ d
  else [0x4e] ++ leBytes 4 d.length ++ d

/-- The unlocking script for a signature: the signature with the flag byte appended, then the public key. -/
def unlocking (sig : Bytes) (flag : UInt8) (pub : Bytes) : Bytes := push (sig ++ [flag]) ++ push pub

/-- Flag 0 stands for ALL|FORKID. -/
def flagOrDefault (f : UInt8) : UInt8 := if f = 0 then 0x41 else f

/-- The transaction with input `k`'s unlocking script replaced. -/
def withUnlocking (tx : Transaction) (k : Nat) (s : Bytes) : Transaction :=
  { tx with Inputs := tx.Inputs.mapIdx fun j i => if j = k then { i with UnlockingScript := some s } else i }

/-- Two transactions that differ at most in unlocking scripts. -/
def SameButUnlocking (tx tx' : Transaction) : Prop :=
  tx.Version = tx'.Version ∧ tx.Locktime = tx'.Locktime ∧ tx.Outputs = tx'.Outputs ∧
  tx.Inputs.map (fun i => ({ i with UnlockingScript := none } : Input)) = tx'.Inputs.map (fun i => ({ i with UnlockingScript := none } : Input))

/-- The script is OP_DUP OP_HASH160 followed by a complete token sequence whose first element is (the push of) `h`. A pay-to-public-key-hash script
of `h` is one of these. -/
def BeginsPayTo (h : Bytes) (s : Bytes) : Prop :=
  ∃ (t : Token) (ts : List Token), s = 0x76 :: 0xa9 :: bytesOf (t :: ts) ∧ (∀ u ∈ t :: ts, u.Valid ∧ Decodable u) ∧ t.payload = h

/-- The pay-to-public-key-hash script of `h`. -/
def p2pkh (h : Bytes) : Bytes := [0x76, 0xa9, 0x14] ++ h ++ [0x88, 0xac]

end Verif.Spec
