import Verif.Props.SigHash
import Verif.Model.Block
/-!
# C46 without a bound on the size of the transaction
-/
namespace Verif.Props
open Verif Spec Transaction

theorem int32_big {v : UInt32} (h : 2 ^ 31 ≤ v.toNat) : int32OfUint32 v = (v.toNat : Int) - 2 ^ 32 := by
  have := v.toNat_lt
  unfold int32OfUint32
  rw [show ((v.toNat : Int) + 2 ^ 31) = ((v.toNat : Int) - 2 ^ 31) + 2 ^ 32 by omega, Int.add_emod_right, Int.emod_eq_of_lt] <;> omega

/-- The `hashOutputs` field panics for a SINGLE flag and an index of at least 2^31 with an output of that index, and for nothing else. -/
theorem hashOutputs_panics (H : HashFns) (tx : Transaction) (idx : UInt32) (flag : UInt8) :
    let R := if flag &&& 31 ≠ sighash.Single ∧ flag &&& 31 ≠ sighash.None then getOutputsHash H tx (-1)
      else if flag &&& 31 = sighash.Single ∧ idx < UInt32.ofNat tx.Outputs.length then getOutputsHash H tx (int32OfUint32 idx)
      else .ok (List.replicate 32 (0 : UInt8))
    (R = .panic ∧ flag &&& 31 = 3 ∧ 2 ^ 31 ≤ idx.toNat ∧ idx.toNat < tx.Outputs.length % 2 ^ 32) ∨
    ((∃ h, R = .ok h) ∧ ¬ (flag &&& 31 = 3 ∧ 2 ^ 31 ≤ idx.toNat ∧ idx.toNat < tx.Outputs.length % 2 ^ 32)) := by
  intro R
  by_cases c1 : flag &&& 31 ≠ sighash.Single ∧ flag &&& 31 ≠ sighash.None
  · exact .inr ⟨⟨Sha256d H (tx.Outputs.flatMap Output.GetBytesForSigHash), by simp only [R]; rw [if_pos c1]; simp [getOutputsHash]⟩, fun h => c1.1 h.1⟩
  by_cases c2 : flag &&& 31 = sighash.Single ∧ idx < UInt32.ofNat tx.Outputs.length
  · have hR : R = getOutputsHash H tx (int32OfUint32 idx) := by simp only [R]; rw [if_neg c1, if_pos c2]
    have hlt := c2.2
    rw [UInt32.lt_iff_toNat_lt, UInt32.toNat_ofNat'] at hlt
    have hlen : idx.toNat < tx.Outputs.length := Nat.lt_of_lt_of_le hlt (Nat.mod_le _ _)
    by_cases c3 : 2 ^ 31 ≤ idx.toNat
    · refine .inl ⟨?_, c2.1, c3, hlt⟩
      rw [hR, int32_big c3]
      unfold getOutputsHash
      have : tx.Outputs.length % 2 ^ 32 < 2 ^ 32 := Nat.mod_lt _ (by decide)
      rw [if_neg (by omega), if_pos (by have := idx.toNat_lt; omega)]
    · refine .inr ⟨?_, fun h => c3 h.2.1⟩
      rw [hR, int32_small (by omega)]
      unfold getOutputsHash
      rw [if_neg (by omega), if_neg (by omega)]
      exact ⟨Sha256d H (tx.Outputs[idx.toNat]).GetBytesForSigHash, by simp [index, List.getElem?_eq_getElem hlen]⟩
  · refine .inr ⟨⟨List.replicate 32 0, by simp only [R]; rw [if_neg c1, if_neg c2]⟩, fun h => c2 ⟨h.1, ?_⟩⟩
    rw [UInt32.lt_iff_toNat_lt, UInt32.toNat_ofNat']
    exact h.2.2

theorem pushBind (H : HashFns) (tx : Transaction) (idx : UInt32) (flag : UInt8) (k : Bytes → Res Bytes) :
    (if flag &&& 31 ≠ sighash.Single ∧ flag &&& 31 ≠ sighash.None then getOutputsHash H tx (-1) >>= k
      else if flag &&& 31 = sighash.Single ∧ idx < UInt32.ofNat tx.Outputs.length then getOutputsHash H tx (int32OfUint32 idx) >>= k
      else k (List.replicate 32 (0 : UInt8))) =
    (if flag &&& 31 ≠ sighash.Single ∧ flag &&& 31 ≠ sighash.None then getOutputsHash H tx (-1)
      else if flag &&& 31 = sighash.Single ∧ idx < UInt32.ofNat tx.Outputs.length then getOutputsHash H tx (int32OfUint32 idx)
      else .ok (List.replicate 32 (0 : UInt8))) >>= k := by
  split_ifs <;> rfl

/-- C46, exact outcome for every transaction, however large: the call panics when the index has no input, and also when the index is at least 2^31, the flag is SINGLE and the transaction has an output of
that index (the index is passed on as an int32); a missing txid or script is an error; everything else succeeds with 32 bytes. -/
theorem C46_every (H : HashFns) (tx : Transaction) (idx : UInt32) (flag : UInt8) :
    match tx.Inputs[idx.toNat]? with
    | none => tx.GetInputSignatureHash H idx flag = .panic
    | some i =>
      if i.PreviousTxID = [] ∨ i.PreviousTxScript = none then (tx.GetInputSignatureHash H idx flag).isErr = true
      else if flag &&& 31 = 3 ∧ 2 ^ 31 ≤ idx.toNat ∧ idx.toNat < tx.Outputs.length % 2 ^ 32 then tx.GetInputSignatureHash H idx flag = .panic
      else ∃ h, tx.GetInputSignatureHash H idx flag = .ok h ∧ h.length = 32 := by
  rcases hi : tx.Inputs[idx.toNat]? with _ | i
  · simp [GetInputSignatureHash, index, hi]
  dsimp only
  by_cases ht : i.PreviousTxID = []
  · rw [if_pos (.inl ht)]; simp [GetInputSignatureHash, index, hi, ht]
  rcases hc : i.PreviousTxScript with _ | code
  · rw [if_pos (.inr rfl)]; simp [GetInputSignatureHash, index, hi, ht, hc]
  rw [if_neg (by simp [ht])]
  unfold GetInputSignatureHash
  simp only [index, hi, Res.ok_bind, if_neg ht, hc, Res.pure_eq]
  rw [pushBind H tx idx flag]
  rcases hashOutputs_panics H tx idx flag with ⟨h1, h2⟩ | ⟨⟨h, h1⟩, h2⟩
  · rw [if_pos h2]
    try dsimp only at h1
    rw [h1]; rfl
  · rw [if_neg h2]
    try dsimp only at h1
    rw [h1]
    exact ⟨_, rfl, by simp [Sha256d, Sha256, H.sha256_length]⟩

/-- A transaction with 2^31 + 1 inputs and outputs: SINGLE on the last input panics, ALL does not. -/
@[irreducible] def hugeN : Nat := 2 ^ 31 + 1

theorem hugeN_eq : hugeN = 2147483649 := by unfold hugeN; rfl

def hugeTx : Transaction :=
  { Version := 1
    Inputs := List.replicate hugeN { PreviousTxID := [0x61, 0x61], PreviousTxOutIndex := 0, PreviousTxSatoshis := 1, PreviousTxScript := some [0x51], UnlockingScript := none, SequenceNumber := 0 }
    Outputs := List.replicate hugeN { Satoshis := 1, LockingScript := [0x51] }
    Locktime := 0 }

example (H : HashFns) : hugeTx.GetInputSignatureHash H 0x80000000 0x43 = .panic ∧ ∃ h, hugeTx.GetInputSignatureHash H 0x80000000 0x41 = .ok h := by
  have e : (0x80000000 : UInt32).toNat = 2 ^ 31 := rfl
  have hi : hugeTx.Inputs[(0x80000000 : UInt32).toNat]? = some { PreviousTxID := [0x61, 0x61], PreviousTxOutIndex := 0, PreviousTxSatoshis := 1, PreviousTxScript := some [0x51], UnlockingScript := none, SequenceNumber := 0 } := by
    rw [e]; exact List.getElem?_replicate_of_lt (by rw [hugeN_eq]; decide)
  have ho : hugeTx.Outputs.length = 2147483649 := List.length_replicate.trans hugeN_eq
  have a := C46_every H hugeTx 0x80000000 0x43
  have b := C46_every H hugeTx 0x80000000 0x41
  rw [hi] at a b
  dsimp only at a b
  rw [if_neg (by simp), ho, if_pos ⟨by decide, by rw [e], by rw [e]; decide⟩] at a
  rw [if_neg (by simp), if_neg (fun h => absurd h.1 (by decide))] at b
  exact ⟨a, b.choose, b.choose_spec.1⟩

/-! ## `chunk` -/

theorem chunkLoop_eq (msg : Bytes) (limit : Nat) (hl : limit ≠ 0) : ∀ (n i : Nat), msg.length < (i + n) * limit →
    (chunkLoop msg limit n i).flatten = msg.drop (i * limit) ∧ ∀ c ∈ chunkLoop msg limit n i, c.length ≤ limit
  | 0, i, h => by
    simp only [Nat.add_zero] at h
    exact ⟨by simp [chunkLoop]; omega, by simp [chunkLoop]⟩
  | n + 1, i, h => by
    obtain ⟨h1, h2⟩ := chunkLoop_eq msg limit hl n (i + 1) (by rw [show i + 1 + n = i + (n + 1) by omega]; exact h)
    have e2 : (i + 1) * limit = i * limit + limit := Nat.succ_mul i limit
    have key : (msg.take (if (i + 1) * limit > msg.length then msg.length else (i + 1) * limit)).drop (i * limit) = (msg.drop (i * limit)).take limit := by
      rw [List.drop_take]
      split_ifs with c
      · rw [List.take_of_length_le (by simp), List.take_of_length_le (by simp; omega)]
      · rw [e2, Nat.add_sub_cancel_left]
    constructor
    · simp only [chunkLoop, List.flatten_cons, h1, key]
      rw [e2, ← List.drop_drop, List.take_append_drop]
    · intro c hc
      simp only [chunkLoop, key, List.mem_cons] at hc
      rcases hc with rfl | hc
      · simp
      · exact h2 c hc

theorem chunkLoop_length (msg : Bytes) (limit : Nat) : ∀ n i, (chunkLoop msg limit n i).length = n
  | 0, _ => rfl
  | n + 1, i => by simp [chunkLoop, chunkLoop_length msg limit n (i + 1)]

/-- The helper `chunk` (block/GetCoinbaseParts.go:166-180, called by no function): pieces of at most `limit` bytes that put together give the message; one more than the quotient, so that a message whose
length is a multiple of the limit gets an empty last piece. -/
theorem chunk_pieces (msg : Bytes) (limit : Nat) (hl : limit ≠ 0) :
    ∃ cs, chunk msg limit = .ok cs ∧ cs.flatten = msg ∧ cs.length = msg.length / limit + 1 ∧ ∀ c ∈ cs, c.length ≤ limit := by
  obtain ⟨h1, h2⟩ := chunkLoop_eq msg limit hl (msg.length / limit + 1) 0 (by
    rw [Nat.zero_add, Nat.succ_mul]
    have := Nat.div_add_mod msg.length limit
    have := Nat.mod_lt msg.length (Nat.pos_of_ne_zero hl)
    rw [Nat.mul_comm]; omega)
  exact ⟨_, by simp [chunk, hl], by simpa using h1, chunkLoop_length .., h2⟩

example : chunk b!"abcdef" 3 = .ok [b!"abc", b!"def", []] := by decide +kernel

end Verif.Props
