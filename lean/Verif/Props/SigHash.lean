import Verif.Spec.Digest
import Verif.Model.SigHash
import Verif.Props.TxBuild
/-!
# C43–C46: the signature hash
-/
namespace Verif.Props
open Verif Spec Transaction

theorem varInt_compact (n : Nat) (h : n < 2 ^ 64) : VarInt (UInt64.ofNat n) = compactSize n := by
  have hn : (UInt64.ofNat n).toNat = n := by rw [UInt64.toNat_ofNat']; exact Nat.mod_eq_of_lt h
  unfold VarInt compactSize
  simp only [UInt64.lt_iff_toNat_lt, hn]
  have e1 : (0xfd : UInt64).toNat = 0xfd := rfl
  have e2 : (0x10000 : UInt64).toNat = 2 ^ 16 := rfl
  have e3 : (0x100000000 : UInt64).toNat = 2 ^ 32 := rfl
  rw [e1, e2, e3]
  split_ifs with h1 h2 h3
  · simp
  · simp only [putUint16, UInt64.toNat_toUInt16, hn, Nat.mod_eq_of_lt h2]
  · simp only [putUint32, UInt64.toNat_toUInt32, hn, Nat.mod_eq_of_lt h3]
  · simp only [putUint64, hn]

theorem flag_tests : ∀ f : UInt8, (f &&& sighash.AnyOneCanPay = 0 ↔ anyoneCanPay f = false) ∧ (f &&& 31 = sighash.None ↔ isNone f = true) ∧
    (f &&& 31 = sighash.Single ↔ isSingle f = true) := by
  apply forall_uint8; decide +kernel

theorem outputBytes_eq {o : Output} (h : o.LockingScript.length < 2 ^ 64) : o.GetBytesForSigHash = outputBytes o := by
  simp only [Output.GetBytesForSigHash, outputBytes, varInt_compact _ h, putUint64_eq]

theorem outputs_eq {os : List Output} (h : ∀ o ∈ os, o.LockingScript.length < 2 ^ 64) : os.flatMap Output.GetBytesForSigHash = os.flatMap outputBytes := by
  induction os with
  | nil => rfl
  | cons o os ih => rw [List.flatMap_cons, List.flatMap_cons, outputBytes_eq (h o (by simp)), ih (fun x hx => h x (by simp [hx]))]

theorem int32_small {v : UInt32} (h : v.toNat < 2 ^ 31) : int32OfUint32 v = v.toNat := by
  unfold int32OfUint32
  rw [Int.emod_eq_of_lt] <;> omega

/-- The `hashOutputs` field. -/
theorem hashOutputs_eq (H : HashFns) (tx : Transaction) (hs : Sized tx) (idx : UInt32) (hi : idx.toNat < tx.Inputs.length) (flag : UInt8) :
    (if flag &&& 31 ≠ sighash.Single ∧ flag &&& 31 ≠ sighash.None then getOutputsHash H tx (-1)
      else if flag &&& 31 = sighash.Single ∧ idx < UInt32.ofNat tx.Outputs.length then getOutputsHash H tx (int32OfUint32 idx)
      else .ok (List.replicate 32 (0 : UInt8))) =
    .ok (match outputsString tx idx.toNat flag with | some s => Sha256d H s | none => zero32) := by
  obtain ⟨-, hN, hS⟩ := flag_tests flag
  obtain ⟨hin, hout, hol, -⟩ := hs
  have hlen : (UInt32.ofNat tx.Outputs.length).toNat = tx.Outputs.length := by rw [UInt32.toNat_ofNat']; exact Nat.mod_eq_of_lt hout
  unfold outputsString
  by_cases h2 : isNone flag
  · have h3 : isSingle flag = false := by
      unfold isNone isSingle at *; simp at h2 ⊢; omega
    have e : ¬ (flag &&& 31 ≠ sighash.Single ∧ flag &&& 31 ≠ sighash.None) := fun h => h.2 (hN.mpr h2)
    have e' : ¬ (flag &&& 31 = sighash.Single ∧ idx < UInt32.ofNat tx.Outputs.length) := fun h => by have := hS.mp h.1; simp [h3] at this
    rw [if_neg e, if_neg e', if_pos h2]; rfl
  · rw [if_neg h2]
    by_cases h3 : isSingle flag
    · have e : ¬ (flag &&& 31 ≠ sighash.Single ∧ flag &&& 31 ≠ sighash.None) := fun h => h.1 (hS.mpr h3)
      rw [if_neg e, if_pos h3]
      by_cases hlt : idx.toNat < tx.Outputs.length
      · rw [if_pos ⟨hS.mpr h3, by rw [UInt32.lt_iff_toNat_lt, hlen]; exact hlt⟩, int32_small (by omega)]
        unfold getOutputsHash
        rw [if_neg (by omega), if_neg (by omega)]
        simp only [Int.toNat_natCast, index, List.getElem?_eq_getElem hlt, Res.ok_bind, Option.map_some, Res.pure_eq]
        rw [outputBytes_eq (hol _ (List.getElem_mem hlt))]
      · rw [if_neg (by rw [UInt32.lt_iff_toNat_lt, hlen]; exact fun h => hlt h.2)]
        rw [List.getElem?_eq_none (by omega)]; rfl
    · have e : (flag &&& 31 ≠ sighash.Single ∧ flag &&& 31 ≠ sighash.None) := ⟨fun h => h3 (hS.mp h), fun h => h2 (hN.mp h)⟩
      rw [if_pos e, if_neg h3]
      simp only [getOutputsHash, if_true, outputs_eq hol]

theorem hashOutputs_bind (H : HashFns) (tx : Transaction) (hs : Sized tx) (idx : UInt32) (hi : idx.toNat < tx.Inputs.length) (flag : UInt8)
    (k : Bytes → Res Bytes) :
    (if flag &&& 31 ≠ sighash.Single ∧ flag &&& 31 ≠ sighash.None then getOutputsHash H tx (-1) >>= k
      else if flag &&& 31 = sighash.Single ∧ idx < UInt32.ofNat tx.Outputs.length then getOutputsHash H tx (int32OfUint32 idx) >>= k
      else k (List.replicate 32 (0 : UInt8))) =
    k (match outputsString tx idx.toNat flag with | some s => Sha256d H s | none => zero32) := by
  have h := congrArg (· >>= k) (hashOutputs_eq H tx hs idx hi flag)
  simp only [Res.ok_bind] at h
  rw [← h]
  split_ifs <;> rfl

/-- C43: the signature hash is the byte-reversed double SHA256 of the published preimage. -/
theorem C43_digest (H : HashFns) (tx : Transaction) (hs : Sized tx) (idx : UInt32) (flag : UInt8) (inp : Input) (code : Bytes)
    (hi : tx.Inputs[idx.toNat]? = some inp) (ht : inp.PreviousTxID ≠ []) (hc : inp.PreviousTxScript = some code) :
    tx.GetInputSignatureHash H idx flag =
      .ok (H.sha256 (H.sha256 (preimage (fun b => H.sha256 (H.sha256 b)) tx idx.toNat inp code flag))).reverse := by
  obtain ⟨hA, hN, hS⟩ := flag_tests flag
  have hlt : idx.toNat < tx.Inputs.length := by
    rcases List.getElem?_eq_some_iff.mp hi with ⟨h, _⟩; exact h
  have hcl : code.length < 2 ^ 64 := hs.2.2.2 inp (List.mem_of_getElem? hi) code hc
  unfold GetInputSignatureHash
  simp only [index, hi, Res.ok_bind, ht, if_false, hc, Res.pure_eq]
  rw [hashOutputs_bind H tx hs idx hlt flag]
  simp only [ReverseBytes_eq, Sha256d, Sha256]
  congr 4
  have e1 : (if flag &&& sighash.AnyOneCanPay = 0 then getPrevoutHash H tx else List.replicate 32 0) =
      if anyoneCanPay flag then zero32 else H.sha256 (H.sha256 (prevoutsString tx)) := by
    have : getPrevoutHash H tx = H.sha256 (H.sha256 (prevoutsString tx)) := by
      simp only [getPrevoutHash, Sha256d, Sha256, prevoutsString, ReverseBytes_eq, putUint32_eq]
      rfl
    rw [this]
    by_cases h : anyoneCanPay flag
    · rw [if_neg (by rw [hA]; simp [h]), if_pos h]; rfl
    · rw [if_pos (by rw [hA]; simpa using h), if_neg h]
  have e2 : (if flag &&& sighash.AnyOneCanPay = 0 ∧ flag &&& 31 ≠ sighash.Single ∧ flag &&& 31 ≠ sighash.None then getSequenceHash H tx else List.replicate 32 0) =
      if anyoneCanPay flag || isNone flag || isSingle flag then zero32 else H.sha256 (H.sha256 (sequenceString tx)) := by
    have : getSequenceHash H tx = H.sha256 (H.sha256 (sequenceString tx)) := by
      simp only [getSequenceHash, Sha256d, Sha256, sequenceString, putUint32_eq]
    rw [this]
    simp only [ne_eq, hA, hN, hS]
    cases anyoneCanPay flag <;> cases isNone flag <;> cases isSingle flag <;> simp [zero32]
  have e3 : flag.toUInt32.toNat = flag.toNat := by simp
  rw [e1, e2]
  unfold preimage
  simp only [outpoint, putUint32_eq, putUint64_eq, varInt_compact _ hcl, e3, List.append_assoc]
  rfl

/-- A transaction whose inputs carry previous scripts, for the examples. -/
def exSpend : Transaction :=
  { exTx with Inputs := exTx.Inputs.map fun i => { i with PreviousTxScript := some [0x76, 0xa9], PreviousTxSatoshis := 77 } }

theorem exSpend_sized : Sized exSpend := by
  refine ⟨by decide +kernel, by decide +kernel, by decide +kernel, ?_⟩
  intro i hi s hs
  have : ∀ i ∈ exSpend.Inputs, i.PreviousTxScript = some [0x76, 0xa9] := by decide +kernel
  rw [this i hi] at hs
  injection hs with hs
  subst hs; decide

example : ∃ h, exSpend.GetInputSignatureHash toyH 1 0xc3 = .ok h ∧ h.length = 32 := by
  refine ⟨_, C43_digest toyH exSpend exSpend_sized 1 0xc3 _ [0x76, 0xa9] rfl (by decide +kernel) (by decide +kernel), ?_⟩
  simp [toyH.sha256_length]

/-! ## C44 -/

/-- The parts of two transactions that the flag commits to for input `idx` are the same. Unlocking scripts are not mentioned, and of the other inputs only
outpoints and sequence numbers are. -/
structure SameCommitment (flag : UInt8) (idx : Nat) (tx tx' : Transaction) : Prop where
  version : tx.Version = tx'.Version
  locktime : tx.Locktime = tx'.Locktime
  input : (tx.Inputs[idx]?).map (fun i => ({ i with UnlockingScript := none } : Input)) = (tx'.Inputs[idx]?).map (fun i => ({ i with UnlockingScript := none } : Input))
  prevouts : anyoneCanPay flag = false → tx.Inputs.map (fun i => (i.PreviousTxID, i.PreviousTxOutIndex)) = tx'.Inputs.map (fun i => (i.PreviousTxID, i.PreviousTxOutIndex))
  sequences : anyoneCanPay flag = false → isNone flag = false → isSingle flag = false → tx.Inputs.map (·.SequenceNumber) = tx'.Inputs.map (·.SequenceNumber)
  outputs : isNone flag = false → isSingle flag = false → tx.Outputs = tx'.Outputs
  single : isSingle flag = true → tx.Outputs[idx]? = tx'.Outputs[idx]?

/-- C44: the signature hash depends on nothing but what `SameCommitment` lists (same hash, same error or same panic). -/
theorem C44_depends_only (H : HashFns) (tx tx' : Transaction) (hs : Sized tx) (hs' : Sized tx') (idx : UInt32) (flag : UInt8)
    (h : SameCommitment flag idx.toNat tx tx') : tx.GetInputSignatureHash H idx flag = tx'.GetInputSignatureHash H idx flag := by
  have hin := h.input
  rcases hi : tx.Inputs[idx.toNat]? with _ | inp
  · rw [hi] at hin
    rcases hi' : tx'.Inputs[idx.toNat]? with _ | inp'
    · simp [GetInputSignatureHash, index, hi, hi']
    · rw [hi'] at hin; simp at hin
  rcases hi' : tx'.Inputs[idx.toNat]? with _ | inp'
  · rw [hi, hi'] at hin; simp at hin
  rw [hi, hi'] at hin
  simp only [Option.map_some, Option.some.injEq, Input.mk.injEq] at hin
  obtain ⟨g1, g2, g3, g4, -, g6⟩ := hin
  by_cases ht : inp.PreviousTxID = []
  · simp [GetInputSignatureHash, index, hi, hi', ht, ← g1]
  rcases hc : inp.PreviousTxScript with _ | code
  · simp [GetInputSignatureHash, index, hi, hi', ht, ← g1, hc, ← g4]
  rw [C43_digest H tx hs idx flag inp code hi ht hc, C43_digest H tx' hs' idx flag inp' code hi' (by rw [← g1]; exact ht) (by rw [← g4]; exact hc)]
  have eprev : anyoneCanPay flag = false → prevoutsString tx = prevoutsString tx' := by
    intro ha
    have := congrArg (List.flatMap (fun p : Bytes × UInt32 => (hexDecodeIgnore p.1).reverse ++ leBytes 4 p.2.toNat)) (h.prevouts ha)
    simp only [List.flatMap_map] at this
    exact this
  have eseq : anyoneCanPay flag = false → isNone flag = false → isSingle flag = false → sequenceString tx = sequenceString tx' := by
    intro a b c
    have := congrArg (List.flatMap (fun p : UInt32 => leBytes 4 p.toNat)) (h.sequences a b c)
    simp only [List.flatMap_map] at this
    exact this
  have eout : outputsString tx idx.toNat flag = outputsString tx' idx.toNat flag := by
    unfold outputsString
    by_cases h2 : isNone flag
    · rw [if_pos h2, if_pos h2]
    · rw [if_neg h2, if_neg h2]
      by_cases h3 : isSingle flag
      · rw [if_pos h3, if_pos h3, h.single h3]
      · rw [if_neg h3, if_neg h3, h.outputs (by simpa using h2) (by simpa using h3)]
  have e1 : outpoint inp = outpoint inp' := by unfold outpoint; rw [g1, g2]
  unfold preimage
  rw [eout, e1, g3, g6, h.version, h.locktime]
  have e2 : (if anyoneCanPay flag then zero32 else H.sha256 (H.sha256 (prevoutsString tx))) = (if anyoneCanPay flag then zero32 else H.sha256 (H.sha256 (prevoutsString tx'))) := by
    by_cases ha : anyoneCanPay flag
    · rw [if_pos ha, if_pos ha]
    · rw [if_neg ha, if_neg ha, eprev (by simpa using ha)]
  have e3 : (if anyoneCanPay flag || isNone flag || isSingle flag then zero32 else H.sha256 (H.sha256 (sequenceString tx))) =
      (if anyoneCanPay flag || isNone flag || isSingle flag then zero32 else H.sha256 (H.sha256 (sequenceString tx'))) := by
    by_cases ha : (anyoneCanPay flag || isNone flag || isSingle flag) = true
    · rw [if_pos ha, if_pos ha]
    · rw [if_neg ha, if_neg ha]
      simp only [Bool.or_eq_true, not_or, Bool.not_eq_true] at ha
      rw [eseq ha.1.1 ha.1.2 ha.2]
  simp only [e2, e3]

/-- C44 (a): unlocking scripts never matter. -/
theorem C44_unlocking (H : HashFns) (tx tx' : Transaction) (hs : Sized tx) (idx : UInt32) (flag : UInt8)
    (h : tx' = { tx with Inputs := tx'.Inputs }) (hi : tx.Inputs.map (fun i => ({ i with UnlockingScript := none } : Input)) = tx'.Inputs.map (fun i => ({ i with UnlockingScript := none } : Input))) :
    tx'.GetInputSignatureHash H idx flag = tx.GetInputSignatureHash H idx flag := by
  have hv : tx'.Version = tx.Version := by rw [h]
  have hl : tx'.Locktime = tx.Locktime := by rw [h]
  have ho : tx'.Outputs = tx.Outputs := by rw [h]
  have hs' : Sized tx' := by
    obtain ⟨s1, s2, s3, s4⟩ := hs
    have hlen := congrArg List.length hi
    simp only [List.length_map] at hlen
    refine ⟨by omega, by rw [ho]; exact s2, by rw [ho]; exact s3, ?_⟩
    intro i him s hsome
    obtain ⟨k, hk⟩ := List.mem_iff_getElem?.mp him
    have := congrArg (·[k]?) hi
    simp only [List.getElem?_map, hk, Option.map_some] at this
    obtain ⟨j, hj, e⟩ := Option.map_eq_some_iff.mp this
    simp only [Input.mk.injEq] at e
    exact s4 j (List.mem_of_getElem? hj) s (by rw [e.2.2.2.1]; exact hsome)
  refine (C44_depends_only H tx tx' hs hs' idx flag ⟨hv.symm, hl.symm, ?_, ?_, ?_, fun _ _ => ho.symm, fun _ => by rw [ho]⟩).symm
  · have := congrArg (·[idx.toNat]?) hi
    simpa only [List.getElem?_map] using this
  · intro _
    have := congrArg (List.map (fun i : Input => (i.PreviousTxID, i.PreviousTxOutIndex))) hi
    simp only [List.map_map] at this
    exact this
  · intro _ _ _
    have := congrArg (List.map (fun i : Input => i.SequenceNumber)) hi
    simp only [List.map_map] at this
    exact this

/-- C44 (b): other inputs' previous scripts and amounts never matter, nor does anything of them under ANYONECANPAY. -/
theorem C44_other_inputs (H : HashFns) (tx : Transaction) (ins : List Input) (hs : Sized tx) (hs' : Sized { tx with Inputs := ins }) (idx : UInt32) (flag : UInt8)
    (hk : ins[idx.toNat]? = tx.Inputs[idx.toNat]?)
    (h : anyoneCanPay flag = true ∨ ins.map (fun i => (i.PreviousTxID, i.PreviousTxOutIndex, i.SequenceNumber)) = tx.Inputs.map (fun i => (i.PreviousTxID, i.PreviousTxOutIndex, i.SequenceNumber))) :
    ({ tx with Inputs := ins } : Transaction).GetInputSignatureHash H idx flag = tx.GetInputSignatureHash H idx flag := by
  refine C44_depends_only H _ _ hs' hs idx flag ⟨rfl, rfl, by simp [hk], ?_, ?_, fun _ _ => rfl, fun _ => rfl⟩
  · intro ha
    rcases h with h | h
    · rw [h] at ha; cases ha
    · have := congrArg (List.map (fun p : Bytes × UInt32 × UInt32 => (p.1, p.2.1))) h
      simp only [List.map_map] at this
      exact this
  · intro ha _ _
    rcases h with h | h
    · rw [h] at ha; cases ha
    · have := congrArg (List.map (fun p : Bytes × UInt32 × UInt32 => p.2.2)) h
      simp only [List.map_map] at this
      exact this

/-- C44 (c): with NONE the outputs do not matter; with SINGLE only the output at the same position does. -/
theorem C44_outputs (H : HashFns) (tx : Transaction) (outs : List Output) (hs : Sized tx) (hs' : Sized { tx with Outputs := outs }) (idx : UInt32) (flag : UInt8)
    (h : isNone flag = true ∨ (isSingle flag = true ∧ outs[idx.toNat]? = tx.Outputs[idx.toNat]?)) :
    ({ tx with Outputs := outs } : Transaction).GetInputSignatureHash H idx flag = tx.GetInputSignatureHash H idx flag := by
  refine C44_depends_only H _ _ hs' hs idx flag ⟨rfl, rfl, rfl, fun _ => rfl, fun _ _ _ => rfl, ?_, ?_⟩
  · intro h2 h3
    rcases h with h | h
    · rw [h] at h2; cases h2
    · rw [h.1] at h3; cases h3
  · intro h3
    rcases h with h | h
    · unfold isNone isSingle at *; simp at h h3; omega
    · exact h.2

/-- C44 (d): with NONE or SINGLE the sequence numbers of the other inputs do not matter. -/
theorem C44_sequences (H : HashFns) (tx : Transaction) (f : Nat → Input → UInt32) (hs : Sized tx) (idx : UInt32) (flag : UInt8)
    (h : isNone flag = true ∨ isSingle flag = true) (hf : ∀ i, f idx.toNat i = i.SequenceNumber) :
    ({ tx with Inputs := tx.Inputs.mapIdx fun k i => { i with SequenceNumber := f k i } } : Transaction).GetInputSignatureHash H idx flag =
      tx.GetInputSignatureHash H idx flag := by
  have hs' : Sized { tx with Inputs := tx.Inputs.mapIdx fun k i => { i with SequenceNumber := f k i } } := by
    obtain ⟨s1, s2, s3, s4⟩ := hs
    refine ⟨by simpa using s1, s2, s3, ?_⟩
    intro i hi s he
    simp only [List.mem_mapIdx] at hi
    obtain ⟨k, hk, rfl⟩ := hi
    exact s4 _ (List.getElem_mem hk) s he
  refine C44_depends_only H _ _ hs' hs idx flag ⟨rfl, rfl, ?_, ?_, ?_, fun _ _ => rfl, fun _ => rfl⟩
  · simp only [List.getElem?_mapIdx]
    cases tx.Inputs[idx.toNat]? <;> simp [hf]
  · intro _
    apply List.ext_getElem <;> simp
  · intro _ h2 h3
    rcases h with h | h
    · rw [h] at h2; cases h2
    · rw [h] at h3; cases h3

example : ∃ h, ({ exSpend with Outputs := [] } : Transaction).GetInputSignatureHash toyH 0 0x42 = .ok h ∧ exSpend.GetInputSignatureHash toyH 0 0x42 = .ok h := by
  have := C44_outputs toyH exSpend [] exSpend_sized ⟨exSpend_sized.1, by decide, by simp, exSpend_sized.2.2.2⟩ 0 0x42 (Or.inl (by decide))
  refine ⟨_, ?_, C43_digest toyH exSpend exSpend_sized 0 0x42 _ [0x76, 0xa9] rfl (by decide +kernel) (by decide +kernel)⟩
  rw [this]
  exact C43_digest toyH exSpend exSpend_sized 0 0x42 _ [0x76, 0xa9] rfl (by decide +kernel) (by decide +kernel)

/-! ## C46 -/

/-- C46, exact outcome: out of range panics; a missing txid or script is an error; everything else succeeds with 32 bytes. -/
theorem C46_outcome (H : HashFns) (tx : Transaction) (hs : Sized tx) (idx : UInt32) (flag : UInt8) :
    (tx.GetInputSignatureHash H idx flag = .panic ↔ tx.Inputs.length ≤ idx.toNat) ∧
    ((tx.GetInputSignatureHash H idx flag).isErr ↔ ∃ i, tx.Inputs[idx.toNat]? = some i ∧ (i.PreviousTxID = [] ∨ i.PreviousTxScript = none)) ∧
    ((∃ h, tx.GetInputSignatureHash H idx flag = .ok h ∧ h.length = 32) ↔ ∃ i s, tx.Inputs[idx.toNat]? = some i ∧ i.PreviousTxID ≠ [] ∧ i.PreviousTxScript = some s) := by
  rcases hi : tx.Inputs[idx.toNat]? with _ | inp
  · have hp : tx.GetInputSignatureHash H idx flag = .panic := by simp [GetInputSignatureHash, index, hi]
    have : tx.Inputs.length ≤ idx.toNat := List.getElem?_eq_none_iff.mp hi
    simp [hp, this]
  · have hlt : idx.toNat < tx.Inputs.length := (List.getElem?_eq_some_iff.mp hi).1
    by_cases ht : inp.PreviousTxID = []
    · have hp : tx.GetInputSignatureHash H idx flag = .err "'PreviousTxID' not supplied" := by simp [GetInputSignatureHash, index, hi, ht]
      simp [hp, ht]; omega
    · rcases hc : inp.PreviousTxScript with _ | code
      · have hp : tx.GetInputSignatureHash H idx flag = .err "'PreviousTxScript' not supplied" := by simp [GetInputSignatureHash, index, hi, ht, hc]
        simp [hp, hc]; omega
      · rw [C43_digest H tx hs idx flag inp code hi ht hc]
        simp [hc, ht, H.sha256_length]; omega

/-- C46, the part that holds: for an index with an input. Missing: an index without input should be an error, see `C46_violation`. -/
theorem C46_errors_on_domain (H : HashFns) (tx : Transaction) (hs : Sized tx) (idx : UInt32) (flag : UInt8) (hi : idx.toNat < tx.Inputs.length) :
    tx.GetInputSignatureHash H idx flag ≠ .panic ∧
    ((tx.GetInputSignatureHash H idx flag).isErr ↔ (tx.Inputs[idx.toNat]).PreviousTxID = [] ∨ (tx.Inputs[idx.toNat]).PreviousTxScript = none) := by
  obtain ⟨h1, h2, -⟩ := C46_outcome H tx hs idx flag
  refine ⟨fun h => by have := h1.mp h; omega, h2.trans ?_⟩
  simp [List.getElem?_eq_getElem hi]

/-- C46 is violated: an index without input panics, for every transaction and every flag. -/
theorem C46_violation (H : HashFns) (tx : Transaction) (idx : UInt32) (flag : UInt8) (hi : tx.Inputs.length ≤ idx.toNat) :
    tx.GetInputSignatureHash H idx flag = .panic ∧ ¬ (tx.GetInputSignatureHash H idx flag).isErr := by
  have : tx.GetInputSignatureHash H idx flag = .panic := by simp [GetInputSignatureHash, index, List.getElem?_eq_none hi]
  simp [this]

example : exSpend.GetInputSignatureHash toyH 2 0x41 = .panic ∧ (exTx.GetInputSignatureHash toyH 1 0x41).isErr = true := by decide +kernel

end Verif.Props
