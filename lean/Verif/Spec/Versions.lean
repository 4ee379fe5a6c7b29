import Verif.Spec.Authorise
/-!
# Specification: versions of one payment

Two transactions that spend and pay the same but have different hashes: what a node has after the one and after the other, of which it accepts one.
-/
namespace Verif.Spec
open Verif

/-- `L₂` is `L₁`, but that the outputs of the transaction with hash `id₁` are those of the transaction with hash `id₂`. -/
structure Renamed (id₁ id₂ : Bytes) (L₁ L₂ : Ledger) : Prop where
  /-- the same outputs, under the other hash -/
  outputs : ∀ n < 2 ^ 32, L₂ (id₂ ++ leBytes 4 n) = L₁ (id₁ ++ leBytes 4 n)
  /-- nothing under the hash of the transaction that was not accepted -/
  gone : id₁ ≠ id₂ → ∀ n < 2 ^ 32, L₂ (id₁ ++ leBytes 4 n) = none ∧ L₁ (id₂ ++ leBytes 4 n) = none
  /-- the same for the rest -/
  rest : ∀ key, (∀ n < 2 ^ 32, key ≠ id₁ ++ leBytes 4 n ∧ key ≠ id₂ ++ leBytes 4 n) → L₂ key = L₁ key

end Verif.Spec
