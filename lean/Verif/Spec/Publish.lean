import Verif.Spec.Ledger
import Verif.Spec.Tokens
/-!
# Specification: data in the outputs of transactions
-/
namespace Verif.Spec
open Verif

/-- A data script: it begins with OP_RETURN, or with OP_FALSE OP_RETURN. -/
def DataScript (s : Bytes) : Prop := (∃ r, s = 0x6a :: r) ∨ ∃ r, s = 0x00 :: 0x6a :: r

/-- The script consists of complete tokens, with these payloads, none of them so long that reading it overflows. -/
def PartsOf (s : Bytes) (ps : List Bytes) : Prop := ∃ ts : List Token, (∀ t ∈ ts, t.Valid ∧ Decodable t) ∧ s = bytesOf ts ∧ ps = payloads ts

/-- A reader of data panics for this script: it is empty, or only OP_FALSE, or a data script in which a push of at least 65533 (OP_PUSHDATA2) or 2^32 - 5 (OP_PUSHDATA4) bytes is announced after
complete tokens. The bytes need not be there. -/
def Harmful (s : Bytes) : Prop :=
  s = [] ∨ s = [0x00] ∨ (DataScript s ∧ ∃ (ts : List Token) (rest : Bytes), (∀ t ∈ ts, t.Valid ∧ Decodable t) ∧ s = bytesOf ts ++ rest ∧ BadHeader rest)

/-- What is published: the OP_FALSE OP_RETURN in front, and the items; an empty item is read as the byte 0. -/
def publishedParts (data : List Bytes) : List Bytes := [0x00] :: [0x6a] :: data.map fun d => if d = [] then [0x00] else d

end Verif.Spec
