import Verif.Go.Hex
/-!
# utils/VarInt.go, utils/ByteManipulation.go
-/
namespace Verif

/-- utils/VarInt.go:7-25 `VarInt` -/
def VarInt (i : UInt64) : Bytes :=
  if i < 0xfd then [i.toUInt8]
  else if i < 0x10000 then 0xfd :: putUint16 i.toUInt16
  else if i < 0x100000000 then 0xfe :: putUint32 i.toUInt32
  else 0xff :: putUint64 i

/-- utils/VarInt.go:30-51 `DecodeVarInt`. The slice expressions `b[1:9]`, `b[1:5]`, `b[1:3]` are checked against the
capacity, so the argument carries its spare bytes. -/
def DecodeVarInt (b : Slice) : Res (UInt64 × Nat) := do
  let b0 ← index b.data 0
  if b0 = 0xff then
    let s ← b.sliceRange 1 9
    let v ← getUint64 s.data
    pure (v, 9)
  else if b0 = 0xfe then
    let s ← b.sliceRange 1 5
    let v ← getUint32 s.data
    pure (v.toUInt64, 5)
  else if b0 = 0xfd then
    let s ← b.sliceRange 1 3
    let v ← getUint16 s.data
    pure (v.toUInt64, 3)
  else
    let v ← getUint16 [b0, 0x00]
    pure (v.toUInt64, 1)

/-- One run of the swap loop of `ReverseBytes` (utils/ByteManipulation.go:48-50): `for i, j := 0, len(a)-1; i < j; i, j = i+1, j-1`.
The first argument bounds the number of iterations (fuel; `len(a)` suffices since `i` grows). -/
def reverseLoop : Nat → Bytes → Nat → Nat → Bytes
  | 0, tmp, _, _ => tmp
  | fuel + 1, tmp, i, j =>
    if i < j then
      let ti := tmp.getD i 0
      let tj := tmp.getD j 0
      reverseLoop fuel ((tmp.set i tj).set j ti) (i + 1) (j - 1)
    else tmp

/-- utils/ByteManipulation.go:44-52 `ReverseBytes` (works on a copy `tmp`). -/
def ReverseBytes (a : Bytes) : Bytes := reverseLoop a.length a 0 (a.length - 1)

/-- The loop of `ReverseHexString` (utils/ByteManipulation.go:62-65): appends `hex[i-2:i]` for `i = len, len-2, ... >= 2`. -/
def reverseHexLoop (hex : Bytes) : Nat → Bytes
  | i + 2 => ((hex.take (i + 2)).drop i) ++ reverseHexLoop hex i
  | _ => []

/-- utils/ByteManipulation.go:56-67 `ReverseHexString` -/
def ReverseHexString (hex : Bytes) : Bytes :=
  let hex := if hex.length % 2 ≠ 0 then 48 :: hex else hex
  reverseHexLoop hex hex.length

/-- utils/ByteManipulation.go:70-77 `GetLittleEndianBytes`: `PutUint32` panics on a buffer of fewer than 4 bytes. -/
def GetLittleEndianBytes (v l : UInt32) : Res Bytes :=
  if l.toNat < 4 then .panic
  else .ok (putUint32 v ++ List.replicate (l.toNat - 4) 0)

/-- The comparison loop of `Equals` (utils/ByteManipulation.go:84-88). -/
def equalsLoop : Bytes → Bytes → Bool
  | [], _ => true
  | x :: xs, b2 => match b2 with
    | [] => false
    | y :: ys => if x ≠ y then false else equalsLoop xs ys

/-- utils/ByteManipulation.go:80-90 `Equals` -/
def Equals (b1 b2 : Bytes) : Bool :=
  if b1.length ≠ b2.length then false else equalsLoop b1 b2

/-- utils/ByteManipulation.go:93-103 `Decode32Byte`; `extra` is allocator rounding past the decoded string. -/
def Decode32Byte (extra : Bytes) (hexStr : Bytes) : Res Bytes := do
  let b ← hexDecodeSlice extra hexStr
  let s ← b.sliceRange 0 32
  pure s.data

/-- utils/ByteManipulation.go:18-29 `sortByteArrays.Less` -/
def lessBytes (a b : Bytes) : Bool := bytesCompare a b == .lt

/-- Insertion of one element, the step of the sorting function below. -/
def insertSorted (x : Bytes) : List Bytes → List Bytes
  | [] => [x]
  | y :: ys => if lessBytes y x then y :: insertSorted x ys else x :: y :: ys

/-- utils/ByteManipulation.go:36-40 `SortByteArrays`. `sort.Sort` is modelled by insertion sort: `Less` is a strict total
order on byte strings, so every correct sorting algorithm returns the same list (proved in Props/C05). -/
def SortByteArrays : List Bytes → List Bytes
  | [] => []
  | x :: xs => insertSorted x (SortByteArrays xs)

end Verif
