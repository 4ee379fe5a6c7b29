import Verif.Spec.Chain
import Verif.Spec.TxBytes
/-!
# Specification: the work of a mining pool

A pool gives the same job to all its miners, and each miner its own first extra nonce. A miner tries second extra nonces, times and nonces, and sends those back for which the header's hash is small.
-/
namespace Verif.Spec
open Verif

/-- A job: what the pool sends to all miners. The previous hash and the Merkle branches are hex texts, the bits are as in the header. -/
structure Job where
  version : UInt32
  prev : Bytes
  c1 : Bytes
  c2 : Bytes
  branches : List Bytes
  bits : Bytes

/-- What a miner sends back; the extra nonces are hex texts, the first is the one the pool has given to the miner. -/
structure Share where
  e1 : Bytes
  e2 : Bytes
  time : Bytes
  nonce : Bytes

/-- The strings that are hashed, with `d`, on the way from `x` to the root of a tree in which the subtrees to the right have the hashes `bs`. -/
def pathStrings (d : Bytes → Bytes) : Bytes → List Bytes → List Bytes
  | x, [] => [x]
  | x, b :: bs => x :: pathStrings d (d x ++ b) bs

/-- The strings hashed for the Merkle root when the coinbase is `coinbase`. -/
def Job.strings (H : HashFns) (job : Job) (coinbase : Bytes) : List Bytes :=
  pathStrings (fun x => H.sha256 (H.sha256 x)) coinbase (job.branches.map hexDecodeIgnore)

/-- On the same level, different strings with the same hash. -/
def PathCollision (d : Bytes → Bytes) (as bs : List Bytes) : Prop := ∃ (k : Nat) (x y : Bytes), as[k]? = some x ∧ bs[k]? = some y ∧ x ≠ y ∧ d x = d y

/-- The job is one for the next block: version, previous hash and bits are what the chain demands, `t` is the target, a positive number below `2 ^ 256`, the height is one that three bytes can say, and the
coinbase value is no more than the subsidy and the fees. -/
structure JobFits (tip : Tip) (fees : Nat) (job : Job) (height : UInt32) (value : UInt64) (t : Int) : Prop where
  version : 4 ≤ job.version.toNat ∧ job.version.toNat < 2 ^ 31
  prev : (hexDecodeIgnore job.prev).reverse = tip.hash
  bits : job.bits = tip.bits
  target : 0 < t ∧ t < 2 ^ 256
  height : tip.height = height.toNat % 2 ^ 24 ∧ 2 ^ 15 ≤ tip.height ∧ tip.height < 2 ^ 23
  value : value.toNat ≤ tip.subsidy + fees ∧ value.toNat ≤ maxMoney

end Verif.Spec
