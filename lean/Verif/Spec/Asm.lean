import Verif.Spec.Signing
import Verif.Model.Opcodes
import Verif.Go.Hex
/-!
# Specification: assembly text of scripts

A text is a list of words between single spaces. A word stands for an opcode if it is in the table of names; otherwise it is hex and stands for the push of the bytes it denotes.
-/
namespace Verif.Spec
open Verif Verif.Op

/-- The words with one space between them. -/
def unwords : List Bytes → Bytes
  | [] => []
  | [w] => w
  | w :: ws => w ++ 32 :: unwords ws

/-- How an item is printed: a single byte as the name of that opcode, anything else in hex. -/
def wordFor (p : Bytes) : Bytes :=
  match p with
  | [b] => (opCodeValues.lookup b).getD []
  | p => hexEncode p

/-- The script bytes a word stands for. -/
def ReadsAs (w b : Bytes) : Prop :=
  (∃ o, opCodeStrings.lookup w = some o ∧ b = [o]) ∨
  (opCodeStrings.lookup w = none ∧ ∃ d, hexDecodeRes w = .ok d ∧ d.length ≤ 2 ^ 32 - 1 ∧ b = push d)

end Verif.Spec
