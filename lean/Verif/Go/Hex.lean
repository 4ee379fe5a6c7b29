import Verif.Go.Basic
/-!
# `encoding/hex` and small pieces of `strings`, `bytes`
-/
namespace Verif

/-- Lower-case hex digit of a nibble (`hextable[n]`). -/
def hexChar (n : UInt8) : UInt8 := if n < 10 then 48 + n else 87 + n

/-- `fromHexChar` of encoding/hex. -/
def fromHexChar (c : UInt8) : Option UInt8 :=
  if 48 ≤ c ∧ c ≤ 57 then some (c - 48)
  else if 97 ≤ c ∧ c ≤ 102 then some (c - 97 + 10)
  else if 65 ≤ c ∧ c ≤ 70 then some (c - 65 + 10)
  else none

/-- `hex.EncodeToString`. -/
def hexEncode : Bytes → Bytes
  | [] => []
  | b :: bs => hexChar (b >>> 4) :: hexChar (b &&& 15) :: hexEncode bs

/-- `hex.DecodeString`: the bytes decoded before the first error, and the error if any.
Simplification: the offending byte is not part of the message. -/
def hexDecode : Bytes → Bytes × Option String
  | [] => ([], none)
  | [c] => match fromHexChar c with
    | some _ => ([], some "encoding/hex: odd length hex string")
    | none => ([], some "encoding/hex: invalid byte")
  | a :: b :: rest => match fromHexChar a, fromHexChar b with
    | some x, some y =>
      let r := hexDecode rest
      (((x <<< 4) ||| y) :: r.1, r.2)
    | _, _ => ([], some "encoding/hex: invalid byte")

/-- `hex.DecodeString` for callers that check the error. -/
def hexDecodeRes (s : Bytes) : Res Bytes :=
  match hexDecode s with
  | (b, none) => .ok b
  | (_, some e) => .err e

/-- `b, _ := hex.DecodeString(s)`: the error is discarded, the bytes decoded so far are kept. -/
def hexDecodeIgnore (s : Bytes) : Bytes := (hexDecode s).1

/-- The slice returned by `hex.DecodeString` (Go 1.13, the version of go.mod): decoding happens in place in a copy of
the string, so the spare capacity holds the not yet overwritten characters, followed by allocator rounding `extra`. -/
def hexDecodeSlice (extra : Bytes) (s : Bytes) : Res Slice :=
  match hexDecode s with
  | (b, none) => .ok ⟨b, s.drop b.length ++ extra⟩
  | (_, some e) => .err e

/-- `strings.Split(s, sep)` for a one-byte separator. -/
def splitOn (sep : UInt8) : Bytes → List Bytes
  | [] => [[]]
  | c :: cs =>
    if c = sep then [] :: splitOn sep cs
    else match splitOn sep cs with
      | [] => [[c]]
      | w :: ws => (c :: w) :: ws

/-- ASCII white space as trimmed by `strings.TrimSpace`. Simplification: the two non-ASCII Latin-1 spaces are omitted,
the strings trimmed by /repo are ASCII. -/
def isSpace (c : UInt8) : Bool := c = 32 || (9 ≤ c && c ≤ 13)

/-- `strings.TrimSpace`. -/
def trimSpace (s : Bytes) : Bytes := ((s.dropWhile isSpace).reverse.dropWhile isSpace).reverse

/-- `bytes.Compare(a, b)`: lexicographic, a proper prefix is smaller. -/
def bytesCompare : Bytes → Bytes → Ordering
  | [], [] => .eq
  | [], _ :: _ => .lt
  | _ :: _, [] => .gt
  | a :: as, b :: bs => if a < b then .lt else if b < a then .gt else bytesCompare as bs

end Verif
