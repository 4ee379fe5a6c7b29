import Verif.Model.RedeemObjects
/-!
# What a caller sees of redeem script structs, and histories of calls
-/
namespace Verif.RObj
open Verif Verif.Obj

/-- Struct `r` shows the redeem script value `v`. -/
def Shows (σ : Store) (r : Nat) (v : RedeemScript) : Prop :=
  ∃ o, σ.objs[r]? = some o ∧ o.SignaturesRequired = v.SignaturesRequired ∧ σ.keys o.PublicKeys = v.PublicKeys

/-- A slice header a Go program can hold. -/
def Fits (σ : Store) (s : RefSlice) : Prop := s.len ≤ s.cap ∧ (s.cap = 0 ∨ ∃ a, σ.arrays[s.arr]? = some a ∧ s.cap ≤ a.length)

/-- Every slice header of the store is one a Go program can hold. -/
def WF (σ : Store) : Prop := ∀ (r : Nat) (o : RsObj), σ.objs[r]? = some o → Fits σ o.PublicKeys

/-- Struct `r` has room for another key in its array. -/
def Room (σ : Store) (r : Nat) : Prop := ∃ o, σ.objs[r]? = some o ∧ o.PublicKeys.len < o.PublicKeys.cap

/-- What a program does with redeem scripts. `copy` is `c := *rs`. -/
inductive Call where
  | copy (r : Nat)
  | new (m : Int)
  | add (r : Nat) (pkey : Bytes) (path : List UInt32)
  | get (r : Nat)

/-- One call on the store; an error return leaves the program running. -/
def Call.run (g : Nat → Nat) (hd : HDKeychain) (σ : Store) : Call → Res Store
  | .copy r => Copy σ r
  | .new m => match New σ m with | .err _ => .ok σ | x => x
  | .add r pkey path => match AddPublicKey g hd σ r pkey path with | .err _ => .ok σ | x => x
  | .get r => do let x ← GetRedeemScript σ r; pure x.1

/-- One call on a list of redeem script values: only the named one changes, and a copy is a value of its own. -/
def Call.runValues (hd : HDKeychain) (v : List RedeemScript) : Call → Res (List RedeemScript)
  | .copy r => do let rs ← index v r; pure (v ++ [rs])
  | .new m => match NewRedeemScript m with | .ok rs => .ok (v ++ [rs]) | .err _ => .ok v | .panic => .panic
  | .add r pkey path => do
    let rs ← index v r
    match Verif.AddPublicKey hd rs pkey path with | .ok rs' => .ok (v.set r rs') | .err _ => .ok v | .panic => .panic
  | .get r => do let rs ← index v r; pure (v.set r (Verif.GetRedeemScript rs).2)

/-- The call does not copy a struct. -/
def Call.NoCopy : Call → Prop
  | .copy _ => False
  | _ => True

/-- A history on the store. -/
def runCalls (g : Nat → Nat) (hd : HDKeychain) : List Call → Store → Res Store
  | [], σ => .ok σ
  | c :: cs, σ => do let σ' ← c.run g hd σ; runCalls g hd cs σ'

/-- A history on values. -/
def runValues (hd : HDKeychain) : List Call → List RedeemScript → Res (List RedeemScript)
  | [], v => .ok v
  | c :: cs, v => do let v' ← c.runValues hd v; runValues hd cs v'

end Verif.RObj
