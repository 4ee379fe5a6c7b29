import Verif.Model.ConcRedeem
import Verif.Spec.SortSteps
import Verif.Spec.ConcBuild
/-!
# Specification: goroutines that ask for a redeem script while others add keys
-/
namespace Verif.Spec
open Verif
open Verif.Redeem (SortAlg)
open Verif.Build (Loc Access)

/-- `AddPublicKey` number `t` has returned. -/
def KeyAdded {alg : SortAlg} (s : Keys.Sys alg) (t : Nat) : Prop := ∃ th, s.app.threads[t]? = some th ∧ th.pc = .done

/-- `GetRedeemScript` number `i` has returned `script`. -/
def GotScript {alg : SortAlg} (s : Keys.Sys alg) (i : Nat) (script : Bytes) : Prop := s.calls[i]? = some (.done script)

/-- The bytes that say: `m` signatures, these keys, of which there are (so it says) `n`; OP_CHECKMULTISIG. -/
def scriptSaying (m : Int) (keys : List Bytes) (n : Nat) : Bytes :=
  [0x50 + byteOfInt m] ++ keys.flatMap (fun k => [UInt8.ofNat k.length] ++ k) ++ [0x50 + UInt8.ofNat n] ++ [0xae]

/-- What the goroutines do to the keys in turn: the first `added.length` numbers add a key, the others ask for the script, which sorts. -/
def keysAfter (added keys : List Bytes) (t : Nat) : List Bytes :=
  match added[t]? with
  | some k => keys ++ [k]
  | none => SortByteArrays keys

/-- Goroutine `t` has returned; the first `added` numbers add a key, the others ask for the script. -/
def CameBack {alg : SortAlg} (s : Keys.Sys alg) (added t : Nat) : Prop := (t < added ∧ KeyAdded s t) ∨ ∃ i script, t = added + i ∧ GotScript s i script

end Verif.Spec
