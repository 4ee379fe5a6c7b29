import Verif.Go.Hex
/-!
# Specification: Bitcoin Merkle trees

Written from the protocol: nodes are byte strings in internal order; a level is hashed pairwise into the next, the last node of an odd level being
paired with itself; the single node of the last level is the root. `dsha` is double SHA256.
-/
namespace Verif.Spec
open Verif

/-- The level above `l`: entry `i` hashes entries `2i` and `2i+1`, or `2i` twice if it is the last one. -/
def level (dsha : Bytes → Bytes) (l : List Bytes) : List Bytes :=
  (List.range ((l.length + 1) / 2)).map fun i => dsha (l.getD (2 * i) [] ++ l.getD (min (2 * i + 1) (l.length - 1)) [])

/-- `r` is the Merkle root of the non-empty list `l`. -/
inductive IsRoot (dsha : Bytes → Bytes) : List Bytes → Bytes → Prop
  | single (x : Bytes) : IsRoot dsha [x] x
  | step {l : List Bytes} {r : Bytes} : 2 ≤ l.length → IsRoot dsha (level dsha l) r → IsRoot dsha l r

/-- The node hashed together with node `k` of level `l`. -/
def sibling (l : List Bytes) (k : Nat) : Bytes := if k % 2 = 1 then l.getD (k - 1) [] else l.getD (min (k + 1) (l.length - 1)) []

/-- `bs` is the sibling path, from the leaf upwards, of position `k` in the tree over `l`, and `r` its root. -/
inductive IsPath (dsha : Bytes → Bytes) : List Bytes → Nat → List Bytes → Bytes → Prop
  | leaf (x : Bytes) : IsPath dsha [x] 0 [] x
  | node {l bs : List Bytes} {k : Nat} {r : Bytes} : 2 ≤ l.length → k < l.length → IsPath dsha (level dsha l) (k / 2) bs r →
      IsPath dsha l k (sibling l k :: bs) r

/-- The string hashed when a node at position `k` is combined with its sibling `b`. -/
def combined (h : Bytes) (k : Nat) (b : Bytes) : Bytes := if k % 2 = 1 then b ++ h else h ++ b

/-- The strings hashed, from the leaf upwards, when a proof is checked. -/
def proofStrings (dsha : Bytes → Bytes) : Bytes → Nat → List Bytes → List Bytes
  | _, _, [] => []
  | h, k, b :: bs => combined h k b :: proofStrings dsha (dsha (combined h k b)) (k / 2) bs

/-- The node reached by a proof. -/
def proofRoot (dsha : Bytes → Bytes) : Bytes → Nat → List Bytes → Bytes
  | h, _, [] => h
  | h, k, b :: bs => proofRoot dsha (dsha (combined h k b)) (k / 2) bs

/-- `s` is one of the strings hashed while the root of `l` is computed: an entry of the next level, or one of the levels above. -/
inductive Hashed (dsha : Bytes → Bytes) : List Bytes → Bytes → Prop
  | here {l : List Bytes} (i : Nat) : 2 ≤ l.length → 2 * i < l.length → Hashed dsha l (l.getD (2 * i) [] ++ l.getD (min (2 * i + 1) (l.length - 1)) [])
  | above {l : List Bytes} {s : Bytes} : 2 ≤ l.length → Hashed dsha (level dsha l) s → Hashed dsha l s

/-- A display-order hex string as internal bytes, and back. -/
def internal (s : Bytes) : Bytes := (hexDecodeIgnore s).reverse
/-- Internal bytes as a display-order hex string. -/
def display (b : Bytes) : Bytes := hexEncode b.reverse

end Verif.Spec
