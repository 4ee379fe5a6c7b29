import Verif.Model.ConcDecrypt
import Verif.Spec.Cipher
import Mathlib.Logic.Function.Iterate
/-!
# Specification: goroutines that decrypt one ciphertext
-/
namespace Verif.Spec
open Verif

/-- Each byte of `m` is the byte of `a` or that of `b` at its place. -/
def Blend (a b m : Bytes) : Prop := m.length = a.length ∧ ∀ (i : Nat) (x : UInt8), m[i]? = some x → a[i]? = some x ∨ b[i]? = some x

/-- Goroutine `t` has returned `r`. -/
def Gave (s : Dec.Sys) (t : Nat) (r : Res Bytes) : Prop := s.threads[t]? = some (.done r)

/-- All goroutines have returned. -/
def AllGave (s : Dec.Sys) : Prop := ∀ pc ∈ s.threads, ∃ r, pc = .done r

/-- Two goroutines accessed one byte, one of them to write it (nothing synchronises them). -/
def ByteRace (log : List Dec.Access) : Prop := ∃ a ∈ log, ∃ b ∈ log, a.by_ ≠ b.by_ ∧ a.at_ = b.at_ ∧ a.write = true

/-- What the slice holds after `k` calls one after the other. -/
def afterCalls (ciph : BlockCipher) (c : Bytes) (k : Nat) : Bytes := (fun x => (Decrypt ciph x).2)^[k] c

end Verif.Spec
