import Verif.Go.Basic
/-!
# Specification: the token grammar of Bitcoin scripts

Independent of the decoder: a script is a sequence of tokens; a token is a single opcode or a push with its length header.
-/
namespace Verif.Spec
open Verif

/-- A script token. -/
inductive Token where
  /-- an opcode that pushes no inline data: 0x00 or 0x4f..0xff -/
  | op (o : UInt8)
  /-- a direct push: one length byte 1..75, then the data -/
  | direct (d : Bytes)
  /-- OP_PUSHDATA1 (0x4c), one length byte, data -/
  | pd1 (d : Bytes)
  /-- OP_PUSHDATA2 (0x4d), two length bytes little endian, data -/
  | pd2 (d : Bytes)
  /-- OP_PUSHDATA4 (0x4e), four length bytes little endian, data -/
  | pd4 (d : Bytes)
deriving DecidableEq, Repr

namespace Token

/-- The length field can hold the length; the opcode is not a push opcode. -/
def Valid : Token → Prop
  | op o => o = 0 ∨ 0x4e < o
  | direct d => 1 ≤ d.length ∧ d.length ≤ 75
  | pd1 d => d.length < 2 ^ 8
  | pd2 d => d.length < 2 ^ 16
  | pd4 d => d.length < 2 ^ 32

/-- The bytes before the data. -/
def header : Token → Bytes
  | op o => [o]
  | direct d => [UInt8.ofNat d.length]
  | pd1 d => 0x4c :: leBytes 1 d.length
  | pd2 d => 0x4d :: leBytes 2 d.length
  | pd4 d => 0x4e :: leBytes 4 d.length

/-- The data of a push; nothing for an opcode. -/
def data : Token → Bytes
  | op _ => []
  | direct d | pd1 d | pd2 d | pd4 d => d

/-- The serialisation of a token. -/
def bytes (t : Token) : Bytes := t.header ++ t.data

/-- What a script reader sees of a token: the data, or the opcode itself. -/
def payload : Token → Bytes
  | op o => [o]
  | direct d | pd1 d | pd2 d | pd4 d => d

/-- `t` is a push. -/
def IsPush : Token → Prop
  | op _ => False
  | _ => True

/-- The token uses the shortest header for its data (always true of single opcodes). -/
def Minimal : Token → Prop
  | op _ => True
  | direct _ => True
  | pd1 d => 76 ≤ d.length
  | pd2 d => 2 ^ 8 ≤ d.length
  | pd4 d => 2 ^ 16 ≤ d.length

end Token

/-- The serialisation of a token sequence. -/
def bytesOf (ts : List Token) : Bytes := ts.flatMap Token.bytes

/-- The payloads of a token sequence. -/
def payloads (ts : List Token) : List Bytes := ts.map Token.payload

/-- `rest` is the beginning of a push token that is not complete. -/
def Truncated (rest : Bytes) : Prop := rest ≠ [] ∧ ∃ t : Token, t.IsPush ∧ t.Valid ∧ ∃ more, more ≠ [] ∧ t.bytes = rest ++ more

/-- A token whose length the decoder's 16/32-bit additions do not overflow on. -/
def Decodable : Token → Prop
  | .pd2 d => d.length ≤ 65532
  | .pd4 d => d.length ≤ 2 ^ 32 - 6
  | _ => True

/-- `b` begins with a push header whose announced length makes `3+l` (uint16) or `5+l` (uint32) overflow. -/
def BadHeader (b : Bytes) : Prop :=
  (∃ lb rest, b = 0x4d :: (lb ++ rest) ∧ lb.length = 2 ∧ 65533 ≤ leNat lb) ∨
  (∃ lb rest, b = 0x4e :: (lb ++ rest) ∧ lb.length = 4 ∧ 2 ^ 32 - 5 ≤ leNat lb)

end Verif.Spec
