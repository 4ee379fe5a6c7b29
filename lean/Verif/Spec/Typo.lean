import Verif.Go.Basic
/-!
# Specification: mistyped texts
-/
namespace Verif.Spec
open Verif

/-- `s` is the text `a` with one character replaced by another; `k` characters follow it. -/
def Replaced (a s : Bytes) (k : Nat) : Prop :=
  ∃ (pre : Bytes) (c c' : UInt8) (post : Bytes), a = pre ++ c :: post ∧ s = pre ++ c' :: post ∧ c ≠ c' ∧ post.length = k

/-- `s` is the text `a` with two different neighbouring characters exchanged; `k` characters follow the two. -/
def Swapped (a s : Bytes) (k : Nat) : Prop :=
  ∃ (pre : Bytes) (c d : UInt8) (post : Bytes), a = pre ++ c :: d :: post ∧ s = pre ++ d :: c :: post ∧ c ≠ d ∧ post.length = k

end Verif.Spec
