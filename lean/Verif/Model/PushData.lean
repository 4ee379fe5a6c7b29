import Verif.Model.Opcodes
import Verif.Go.Hex
/-!
# script/OpPushdata.go
-/
namespace Verif
open Op

/-- script/OpPushdata.go:40-68 `GetPushDataPrefix` -/
def GetPushDataPrefix (data : Bytes) : Res Bytes :=
  let l := data.length
  if l ≤ 75 then .ok [UInt8.ofNat l]
  else if l ≤ 0xFF then .ok [0x4c, UInt8.ofNat l]
  else if l ≤ 0xFFFF then .ok (0x4d :: putUint16 (UInt16.ofNat l))
  else if l ≤ 0xFFFFFFFF then .ok (0x4e :: putUint32 (UInt32.ofNat l))
  else .err "data too big"

/-- script/OpPushdata.go:17-31 `EncodeParts`. Simplification: the error message does not carry the part number. -/
def EncodeParts : List Bytes → Res Bytes
  | [] => .ok []
  | part :: parts =>
    match GetPushDataPrefix part with
    | .ok pd => do
      let rest ← EncodeParts parts
      pure (pd ++ part ++ rest)
    | _ => .err "part is too big"

/-- How a run of `DecodeParts` ends. -/
inductive Ending where
  | done
  | notEnoughData
  | panic
deriving DecidableEq, Repr

/-- `b[lo:hi]` for a `hi` already known to be at most `len(b)`: only `lo <= hi` can still fail. -/
def sub (b : Bytes) (lo hi : Nat) : Option Bytes :=
  if lo ≤ hi ∧ hi ≤ b.length then some ((b.take hi).drop lo) else none

/-- One iteration of the loop of `DecodeParts`, script/OpPushdata.go:86-139: the next part and the remaining bytes, or
how decoding ends. The additions `3+l`, `5+l`, `1+l` are done in uint16, uint32, uint8 as in the source. -/
def decodeStep (b : Bytes) : Except Ending (Bytes × Bytes) :=
  match b with
  | [] => .error .done
  | b0 :: _ =>
    if b0 = OpPUSHDATA1 then
      if b.length < 2 then .error .notEnoughData
      else
        let l : UInt64 := (b.getD 1 0).toUInt64
        let hi := (2 + l).toNat
        if b.length < hi then .error .notEnoughData
        else match sub b 2 hi with
          | some part => .ok (part, b.drop hi)
          | none => .error .panic
    else if b0 = OpPUSHDATA2 then
      if b.length < 3 then .error .notEnoughData
      else
        let l : UInt16 := UInt16.ofNat (leNat ((b.drop 1).take 2))
        let hi := (3 + l).toNat
        if b.length < hi then .error .notEnoughData
        else match sub b 3 hi with
          | some part => .ok (part, b.drop hi)
          | none => .error .panic
    else if b0 = OpPUSHDATA4 then
      if b.length < 5 then .error .notEnoughData
      else
        let l : UInt32 := UInt32.ofNat (leNat ((b.drop 1).take 4))
        let hi := (5 + l).toNat
        if b.length < hi then .error .notEnoughData
        else match sub b 5 hi with
          | some part => .ok (part, b.drop hi)
          | none => .error .panic
    else if b0 ≥ 0x01 ∧ b0 ≤ 0x4e then
      let l : UInt8 := b0
      let hi := (1 + l).toNat
      if b.length < hi then .error .notEnoughData
      else match sub b 1 hi with
        | some part => .ok (part, b.drop hi)
        | none => .error .panic
    else .ok ([b0], b.drop 1)

/-- The loop of `DecodeParts`; `fuel` bounds the iterations (each one consumes at least one byte). -/
def decodeLoop : Nat → Bytes → List Bytes × Ending
  | 0, _ => ([], .done)
  | fuel + 1, b =>
    match decodeStep b with
    | .error e => ([], e)
    | .ok (part, rest) =>
      let r := decodeLoop fuel rest
      (part :: r.1, r.2)

/-- script/OpPushdata.go:84-142 `DecodeParts` with both results: the parts collected so far and how decoding ended. -/
def DecodePartsFull (b : Bytes) : List Bytes × Ending := decodeLoop (b.length + 1) b

/-- script/OpPushdata.go:84-142 `DecodeParts` for callers that discard the parts on error. -/
def DecodeParts (b : Bytes) : Res (List Bytes) :=
  match DecodePartsFull b with
  | (r, .done) => .ok r
  | (_, .notEnoughData) => .err "Not enough data"
  | (_, .panic) => .panic

/-- script/OpPushdata.go:73-79 `DecodeStringParts` -/
def DecodeStringParts (s : Bytes) : Res (List Bytes) := do
  let b ← hexDecodeRes s
  DecodeParts b

end Verif
