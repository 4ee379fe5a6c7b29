import Verif.Spec.Ledger
/-!
# Specification: transactions that have nothing to do with each other
-/
namespace Verif.Spec
open Verif

/-- No output is spent by both transactions. -/
def Separate (b₁ b₂ : Bytes) : Prop :=
  ∀ t₁ t₂, IsTx MinCompactSize t₁ b₁ → IsTx MinCompactSize t₂ b₂ → ∀ key ∈ t₁.Inputs.map outpoint, key ∉ t₂.Inputs.map outpoint

/-- The unspent outputs after transactions of which none spends what another one pays: there is no order in it. -/
structure Settled (H : HashFns) (L : Ledger) (bs : List Bytes) (L' : Ledger) : Prop where
  /-- what they pay is there -/
  paid : ∀ b ∈ bs, ∀ t, IsTx MinCompactSize t b → ∀ n < 2 ^ 32, L' (H.sha256 (H.sha256 b) ++ leBytes 4 n) = (t.Outputs[n]?).map fun o => ⟨o.Satoshis, o.LockingScript⟩
  /-- what they spend is gone -/
  spent : ∀ key, (∀ b ∈ bs, ∀ n < 2 ^ 32, key ≠ H.sha256 (H.sha256 b) ++ leBytes 4 n) → (∃ b ∈ bs, ∃ t, IsTx MinCompactSize t b ∧ key ∈ t.Inputs.map outpoint) → L' key = none
  /-- the rest stays -/
  rest : ∀ key, (∀ b ∈ bs, ∀ n < 2 ^ 32, key ≠ H.sha256 (H.sha256 b) ++ leBytes 4 n) → (¬ ∃ b ∈ bs, ∃ t, IsTx MinCompactSize t b ∧ key ∈ t.Inputs.map outpoint) → L' key = L key

end Verif.Spec
