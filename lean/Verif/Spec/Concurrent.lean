import Verif.Model.Concurrent
import Verif.Spec.Signing
/-!
# Specification: what goroutines that sign one transaction may leave behind

Stated with the calls made alone on the transaction as it was at the start.
-/
namespace Verif.Spec
open Verif Verif.Conc

/-- A call addresses input `k`: `Sign` the input it names, `SignAuto` every input whose previous script begins by paying to the hash of the signer's key. -/
def Addresses (H : HashFns) (is : InternalSigner) (tx : Transaction) : Job → Nat → Prop
  | .one _ idx, k => k = idx.toNat
  | .auto _, k => ∃ i sc, tx.Inputs[k]? = some i ∧ i.PreviousTxScript = some sc ∧ BeginsPayTo (H.ripemd160 (H.sha256 is.pubKey)) sc

/-- The call `j` (signer and kind), made alone on `tx`, gives input `k` the unlocking script `s`. -/
def Writes (H : HashFns) (signers : List InternalSigner) (tx : Transaction) (j : Nat × Job) (k : Nat) (s : Bytes) : Prop :=
  ∃ is, signers[j.1]? = some is ∧ Addresses H is tx j.2 k ∧ is.Sign H (UInt32.ofNat k) tx = .ok (withUnlocking tx k s)

/-- The call was made through the transaction's method. -/
def viaMethod : Job → Bool
  | .one m _ => m
  | .auto m => m

/-- The call `j`, made alone on `tx`, returns this error (`none`: it succeeds). -/
def Returns (H : HashFns) (signers : List InternalSigner) (tx : Transaction) (j : Nat × Job) (e : Option String) : Prop :=
  ∃ is, signers[j.1]? = some is ∧
    match j.2, e with
    | .one _ idx, some e => is.Sign H idx tx = .err e
    | .one _ idx, none => ∃ tx', is.Sign H idx tx = .ok tx'
    | .auto _, e => e = none

/-- The last goroutine that wrote input `k`'s unlocking script. -/
def lastWriter (log : List Access) (k : Nat) : Option Nat :=
  ((log.filter fun a => a.write && a.loc == .unlocking k).getLast?).map (·.by_)

/-- Two of the accesses race: different goroutines, the same place, at least one write. (The goroutines share no lock or channel, so nothing orders their accesses.) -/
def HasRace (log : List Access) : Prop := ∃ a ∈ log, ∃ b ∈ log, a.by_ ≠ b.by_ ∧ a.loc = b.loc ∧ a.write = true

end Verif.Spec
