import Verif.Spec.Ledger
import Verif.Spec.Merkle
import Verif.Spec.Target
import Verif.Spec.Bip34
/-!
# Specification: what a node checks before it accepts a block, and what it does with it

Written from the consensus rules (after Genesis), independent of the library: the next block on top of a chain, in wire form. Not covered: how the demanded bits and the
subsidy come about (they are given), the number of blocks a coinbase output must wait before it can be spent, and the rules for signature operations and the like that
are policy after Genesis.
-/
namespace Verif.Spec
open Verif

/-- What the chain so far demands of the next block. -/
structure Tip where
  /-- the hash of the last block header -/
  hash : Bytes
  /-- the height of the next block -/
  height : Nat
  /-- the four bytes of the bits field, as in the header -/
  bits : Bytes
  /-- the times the next block can have: later than the median of the last blocks, not far in the future -/
  earliest : Nat
  latest : Nat
  /-- what a block may create -/
  subsidy : Nat
  /-- the most bytes of a block -/
  maxBytes : Nat

/-- A block header in wire form: 80 bytes. -/
def IsHeader (version : UInt32) (prev root time bits nonce b : Bytes) : Prop :=
  prev.length = 32 ∧ root.length = 32 ∧ time.length = 4 ∧ bits.length = 4 ∧ nonce.length = 4 ∧ b = leBytes 4 version.toNat ++ prev ++ root ++ time ++ bits ++ nonce

/-- The bits field (little-endian) stands for a target that is positive and fits 256 bits, and the hash, read as a little-endian number, is not above it. -/
def ProofOfWork (bits hash : Bytes) : Prop :=
  ∃ e x y z, bits = [z, y, x, e] ∧ 0 < compactTarget e x y z ∧ compactTarget e x y z < 2 ^ 256 ∧ (leNat hash : Int) ≤ compactTarget e x y z

/-- A coinbase for a block of height `height` that may pay `most`: one input, which names no output and has a script of 2 to 100 bytes that begins with the height. -/
structure ValidCoinbase (height most : Nat) (tx : Transaction) : Prop where
  input : ∃ i s, tx.Inputs = [i] ∧ outpoint i = List.replicate 32 0 ++ [0xff, 0xff, 0xff, 0xff] ∧ i.UnlockingScript = some s ∧ 2 ≤ s.length ∧ s.length ≤ 100 ∧ HeightOK height s
  outputs : tx.Outputs ≠ []
  range : valueOut tx ≤ maxMoney
  reward : valueOut tx ≤ most
  final : tx.Locktime = 0 ∨ ∀ i ∈ tx.Inputs, i.SequenceNumber = 0xffffffff

/-- The node accepts the transactions `bs` one after the other, has `L'` afterwards, and they leave `fees` in all. -/
def AcceptsFees (H : HashFns) (verify : Bytes → Bytes → Bytes → Bool) : Ledger → List Bytes → Ledger → Nat → Prop
  | L, [], L', fees => L' = L ∧ fees = 0
  | L, b :: bs, L', fees => ∃ L1 tx rest, NodeAccepts H verify L b L1 ∧ IsTx MinCompactSize tx b ∧ AcceptsFees H verify L1 bs L' rest ∧ fees = (valueIn L tx - valueOut tx) + rest

/-- A node whose chain ends in `tip` and which has the unspent outputs `L` accepts the bytes `b` as the next block, and has the unspent outputs `L'` afterwards. A block is a
header, the number of transactions and the transactions, the coinbase first. -/
def NodeAcceptsBlock (H : HashFns) (verify : Bytes → Bytes → Bytes → Bool) (tip : Tip) (L : Ledger) (b : Bytes) (L' : Ledger) : Prop :=
  ∃ (version : UInt32) (prev root time bits nonce header count cbBytes : Bytes) (txBytes : List Bytes) (cb : Transaction) (L1 : Ledger) (fees : Nat),
    b = header ++ count ++ cbBytes ++ txBytes.flatten ∧ b.length ≤ tip.maxBytes ∧
    -- the header
    IsHeader version prev root time bits nonce header ∧ 4 ≤ version.toNat ∧ version.toNat < 2 ^ 31 ∧ prev = tip.hash ∧ tip.earliest ≤ leNat time ∧ leNat time ≤ tip.latest ∧
    bits = tip.bits ∧ ProofOfWork bits (H.sha256 (H.sha256 header)) ∧
    -- the transactions are the ones the header commits to, none is there twice
    MinCompactSize (txBytes.length + 1) count ∧
    IsRoot (fun x => H.sha256 (H.sha256 x)) ((cbBytes :: txBytes).map fun x => H.sha256 (H.sha256 x)) root ∧
    ((cbBytes :: txBytes).map fun x => H.sha256 (H.sha256 x)).Nodup ∧
    -- they are valid; the coinbase takes no more than the subsidy and the fees; no unspent output is of a transaction with its hash
    AcceptsFees H verify L txBytes L1 fees ∧
    cbBytes.length ≤ maxTxBytes ∧ IsTx MinCompactSize cb cbBytes ∧ ValidCoinbase tip.height (tip.subsidy + fees) cb ∧
    (∀ n < 2 ^ 32, L (H.sha256 (H.sha256 cbBytes) ++ leBytes 4 n) = none) ∧
    L' = L1.after (H.sha256 (H.sha256 cbBytes)) cb

end Verif.Spec
