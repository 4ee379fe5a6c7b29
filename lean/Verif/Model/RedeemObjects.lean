import Verif.Model.Objects
import Verif.Model.Script
/-!
# Redeem scripts as the Go program holds them

`PublicKeys` is a `[][]byte`, a slice header into an array of keys. `AddPublicKey` appends to it and `GetRedeemScript` sorts it in place, so two `RedeemScript` structs of which one is a copy
of the other share the array. The bytes of a key are never written and are values here.
-/
namespace Verif.RObj
open Verif Verif.Obj Verif.Op

/-- script/RedeemScript.go:16-20 `RedeemScript` (no function reads or writes `Signatures`) -/
structure RsObj where
  SignaturesRequired : Int
  PublicKeys : RefSlice
deriving DecidableEq, Repr

/-- The redeem script structs and key arrays of a run. -/
structure Store where
  arrays : List (List Bytes)
  objs : List RsObj

/-- The keys a slice header shows. -/
def Store.keys (σ : Store) (s : RefSlice) : List Bytes := (σ.arrays.getD s.arr []).take s.len

/-- `append(s, pk)`: in place when there is capacity left, else into a new array with `g len` extra (nil) entries; `g` is the growth policy of the runtime. -/
def Store.append (g : Nat → Nat) (σ : Store) (s : RefSlice) (pk : Bytes) : Store × RefSlice :=
  if s.len < s.cap then
    ({ σ with arrays := σ.arrays.set s.arr ((σ.arrays.getD s.arr []).set s.len pk) }, { s with len := s.len + 1 })
  else
    ({ σ with arrays := σ.arrays ++ [σ.keys s ++ [pk] ++ List.replicate (g s.len) []] }, ⟨σ.arrays.length, s.len + 1, s.len + 1 + g s.len⟩)

/-- script/RedeemScript.go:23-37 `NewRedeemScript`: a new struct with the nil slice. -/
def New (σ : Store) (m : Int) : Res Store := do
  let rs ← NewRedeemScript m
  pure { σ with objs := σ.objs ++ [⟨rs.SignaturesRequired, ⟨0, 0, 0⟩⟩] }

/-- `c := *rs` in a caller: a new struct with the same slice header. -/
def Copy (σ : Store) (r : Nat) : Res Store := do
  let o ← index σ.objs r
  pure { σ with objs := σ.objs ++ [o] }

/-- script/RedeemScript.go:120-149 `AddPublicKey` -/
def AddPublicKey (g : Nat → Nat) (hd : HDKeychain) (σ : Store) (r : Nat) (pkey : Bytes) (derivationPath : List UInt32) : Res Store := do
  let o ← index σ.objs r
  if derivationPath.length ≠ 2 then .err "We only support derivation paths with exactly 2 levels"
  else do
    let pk ← hd.derive pkey (derivationPath.getD 0 0) (derivationPath.getD 1 0)
    let a := σ.append g o.PublicKeys pk
    pure { a.1 with objs := a.1.objs.set r { o with PublicKeys := a.2 } }

/-- script/RedeemScript.go:164-179 `GetRedeemScript`: `utils.SortByteArrays(rs.PublicKeys)` sorts the elements of the slice in their array and returns the same header. -/
def GetRedeemScript (σ : Store) (r : Nat) : Res (Store × Bytes) := do
  let o ← index σ.objs r
  let sorted := SortByteArrays (σ.keys o.PublicKeys)
  let σ' := { σ with arrays := σ.arrays.set o.PublicKeys.arr (sorted ++ (σ.arrays.getD o.PublicKeys.arr []).drop o.PublicKeys.len) }
  pure (σ', [OpBASE + byteOfInt o.SignaturesRequired] ++ redeemKeys sorted ++ [OpBASE + byteOfInt (sorted.length : Int)] ++ [OpCHECKMULTISIG])

end Verif.RObj
