import Verif.Spec.SignWork
import Verif.Props.Work
import Verif.Props.SignAuto
import Verif.Props.Merkle
import Mathlib.Algebra.Order.BigOperators.Group.List
import Mathlib.Tactic.Ring
/-!
# C108: how many bytes are hashed to sign
-/
namespace Verif.Props
open Verif Spec Transaction

variable (H : HashFns)

theorem sha256dW_res (b : Bytes) : (sha256dW H b).res = .ok (Sha256d H b) := rfl
theorem sha256dW_count (b : Bytes) : (sha256dW H b).count = b.length := rfl

theorem getOutputsHashW_res (tx : Transaction) (n : Int) : (getOutputsHashW H tx n).res = getOutputsHash H tx n := by
  unfold getOutputsHashW getOutputsHash
  split_ifs
  · rfl
  · rfl
  · simp only [work_bind_res, work_free_res, sha256dW_res, Res.pure_eq]

theorem prevoutsFieldW_eq (tx : Transaction) (flag : UInt8) : (prevoutsFieldW H tx flag).res =
    .ok (if flag &&& sighash.AnyOneCanPay = 0 then getPrevoutHash H tx else List.replicate 32 0) := by
  unfold prevoutsFieldW; split_ifs <;> rfl

theorem sequenceFieldW_eq (tx : Transaction) (flag : UInt8) : (sequenceFieldW H tx flag).res =
    .ok (if flag &&& sighash.AnyOneCanPay = 0 ∧ flag &&& 31 ≠ sighash.Single ∧ flag &&& 31 ≠ sighash.None then getSequenceHash H tx else List.replicate 32 0) := by
  unfold sequenceFieldW; split_ifs <;> rfl

theorem outputsFieldW_res (tx : Transaction) (idx : UInt32) (flag : UInt8) : (outputsFieldW H tx idx flag).res =
    (if flag &&& 31 ≠ sighash.Single ∧ flag &&& 31 ≠ sighash.None then getOutputsHash H tx (-1)
      else if flag &&& 31 = sighash.Single ∧ idx < UInt32.ofNat tx.Outputs.length then getOutputsHash H tx (int32OfUint32 idx)
      else .ok (List.replicate 32 (0 : UInt8))) := by
  unfold outputsFieldW; split_ifs <;> simp [getOutputsHashW_res]

/-- C108 (model): without the counter, the counted digest is the digest. -/
theorem C108_digest_model (tx : Transaction) (idx : UInt32) (flag : UInt8) : (GetInputSignatureHashW H tx idx flag).res = tx.GetInputSignatureHash H idx flag := by
  unfold GetInputSignatureHashW GetInputSignatureHash
  simp only [work_bind_res, work_free_res]
  congr 1
  funext i
  split
  · rfl
  · rcases i.PreviousTxScript with _ | code
    · rfl
    · simp only [work_bind_res, prevoutsFieldW_eq, sequenceFieldW_eq, outputsFieldW_res, sha256dW_res, Res.ok_bind, work_pure_res, Res.pure_eq]
      split_ifs <;> rfl

/-- C108 (model): the same for `Sign`. -/
theorem C108_sign_model (is : InternalSigner) (idx : UInt32) (tx : Transaction) : (is.SignW H idx tx).res = is.Sign H idx tx := by
  unfold InternalSigner.SignW InternalSigner.Sign
  simp only [work_bind_res, work_free_res, C108_digest_model]

theorem signAutoStepW_res (is : InternalSigner) (k : Nat) (tx : Transaction) : (is.signAutoStepW H k tx).res = is.signAutoStep H k tx := by
  unfold InternalSigner.signAutoStepW InternalSigner.signAutoStep
  rcases tx.Inputs[k]? with _ | inp
  · rfl
  simp only
  have key : ∀ h : Bytes, (if hexEncode h = hexEncode (Hash160 H is.pubKey) then
        (match (is.SignW H (UInt32.ofNat k) tx).res with
        | .ok tx' => (⟨(is.SignW H (UInt32.ofNat k) tx).count, .ok tx'⟩ : Work Transaction)
        | .err _ => ⟨(is.SignW H (UInt32.ofNat k) tx).count, .ok tx⟩
        | .panic => ⟨(is.SignW H (UInt32.ofNat k) tx).count, .panic⟩)
      else pure tx).res = if hexEncode h = hexEncode (Hash160 H is.pubKey) then
        match is.Sign H (UInt32.ofNat k) tx with
        | .ok tx' => .ok tx'
        | .err _ => .ok tx
        | .panic => .panic
      else .ok tx := by
    intro h
    rw [C108_sign_model]
    split_ifs
    · rcases is.Sign H (UInt32.ofNat k) tx with _ | _ | _ <;> rfl
    · rfl
  rcases GetPublicKeyHash inp.PreviousTxScript with h | e | _
  · exact key h
  · exact key []
  · rfl

theorem signAutoLoopW_res (is : InternalSigner) (n : Nat) : ∀ (i : Nat) (tx : Transaction), (is.signAutoLoopW H n i tx).res = is.signAutoLoop H n i tx := by
  induction n with
  | zero => intros; rfl
  | succ n ih =>
    intro i tx
    simp only [InternalSigner.signAutoLoopW, InternalSigner.signAutoLoop, work_bind_res, signAutoStepW_res, ih]

/-- C108 (model): the same for `SignAuto`. -/
theorem C108_auto_model (is : InternalSigner) (tx : Transaction) : (is.SignAutoW H tx).res = is.SignAuto H tx := signAutoLoopW_res H is _ _ _

/-! ## One input -/

theorem outputsWork (tx : Transaction) (hs : Sized tx) (idx : UInt32) (hi : idx.toNat < tx.Inputs.length) (flag : UInt8) :
    outputsFieldW H tx idx flag =
    ⟨((outputsString tx idx.toNat flag).getD []).length, .ok (match outputsString tx idx.toNat flag with | some s => Sha256d H s | none => zero32)⟩ := by
  obtain ⟨-, hN, hS⟩ := flag_tests flag
  obtain ⟨hin, hout, hol, -⟩ := hs
  have hlen : (UInt32.ofNat tx.Outputs.length).toNat = tx.Outputs.length := by rw [UInt32.toNat_ofNat']; exact Nat.mod_eq_of_lt hout
  unfold outputsString outputsFieldW
  by_cases h2 : isNone flag
  · have h3 : isSingle flag = false := by
      unfold isNone isSingle at *; simp at h2 ⊢; omega
    have e : ¬ (flag &&& 31 ≠ sighash.Single ∧ flag &&& 31 ≠ sighash.None) := fun h => h.2 (hN.mpr h2)
    have e' : ¬ (flag &&& 31 = sighash.Single ∧ idx < UInt32.ofNat tx.Outputs.length) := fun h => by have := hS.mp h.1; simp [h3] at this
    rw [if_neg e, if_neg e', if_pos h2]; rfl
  · rw [if_neg h2]
    by_cases h3 : isSingle flag
    · have e : ¬ (flag &&& 31 ≠ sighash.Single ∧ flag &&& 31 ≠ sighash.None) := fun h => h.1 (hS.mpr h3)
      rw [if_neg e, if_pos h3]
      by_cases hlt : idx.toNat < tx.Outputs.length
      · rw [if_pos ⟨hS.mpr h3, by rw [UInt32.lt_iff_toNat_lt, hlen]; exact hlt⟩, int32_small (by omega)]
        unfold getOutputsHashW
        rw [if_neg (by omega), if_neg (by omega)]
        simp only [Int.toNat_natCast, index, List.getElem?_eq_getElem hlt, Option.map_some, work_free_ok_bind]
        rw [outputBytes_eq (hol _ (List.getElem_mem hlt))]
        rfl
      · rw [if_neg (by rw [UInt32.lt_iff_toNat_lt, hlen]; exact fun h => hlt h.2)]
        rw [List.getElem?_eq_none (by omega)]; rfl
    · have e : (flag &&& 31 ≠ sighash.Single ∧ flag &&& 31 ≠ sighash.None) := ⟨fun h => h3 (hS.mp h), fun h => h2 (hN.mp h)⟩
      rw [if_pos e, if_neg h3]
      simp only [getOutputsHashW, if_true, outputs_eq hol]
      rfl

/-- C108: the digest of an input that has a previous transaction and script hashes exactly the strings of the published algorithm: nothing is kept from earlier calls. -/
theorem C108_digest (tx : Transaction) (hs : Sized tx) (idx : UInt32) (flag : UInt8) (inp : Input) (code : Bytes)
    (hi : tx.Inputs[idx.toNat]? = some inp) (ht : inp.PreviousTxID ≠ []) (hc : inp.PreviousTxScript = some code) :
    (GetInputSignatureHashW H tx idx flag).count = digestWork tx idx.toNat flag inp code := by
  obtain ⟨hA, hN, hS⟩ := flag_tests flag
  have hlt : idx.toNat < tx.Inputs.length := (List.getElem?_eq_some_iff.mp hi).1
  have hcl : code.length < 2 ^ 64 := hs.2.2.2 inp (List.mem_of_getElem? hi) code hc
  have ho := outputsWork H tx hs idx hlt flag
  have hp := prevoutsFieldW_eq H tx flag
  have hq := sequenceFieldW_eq H tx flag
  have cp : (prevoutsFieldW H tx flag).count = if anyoneCanPay flag then 0 else (prevoutsString tx).length := by
    unfold prevoutsFieldW prevoutsString
    by_cases h : anyoneCanPay flag
    · rw [if_neg (by rw [hA]; simp [h]), if_pos h]; rfl
    · rw [if_pos (by rw [hA]; simpa using h), if_neg h, sha256dW_count]
      simp only [ReverseBytes_eq, putUint32_eq]; rfl
  have cq : (sequenceFieldW H tx flag).count = if anyoneCanPay flag || isNone flag || isSingle flag then 0 else (sequenceString tx).length := by
    unfold sequenceFieldW sequenceString
    simp only [ne_eq, hA, hN, hS, putUint32_eq]
    cases anyoneCanPay flag <;> cases isNone flag <;> cases isSingle flag <;> simp [sha256dW_count]
  have dl : ∀ b, (Sha256d H b).length = 32 := fun b => H.sha256_length _
  have lp : (if flag &&& sighash.AnyOneCanPay = 0 then getPrevoutHash H tx else List.replicate 32 0).length = 32 := by
    split_ifs
    · exact dl _
    · simp
  have lq : (if flag &&& sighash.AnyOneCanPay = 0 ∧ flag &&& 31 ≠ sighash.Single ∧ flag &&& 31 ≠ sighash.None then getSequenceHash H tx else List.replicate 32 0).length = 32 := by
    split_ifs
    · exact dl _
    · simp
  have lo : (match outputsString tx idx.toNat flag with | some s => Sha256d H s | none => zero32).length = 32 := by
    split
    · exact dl _
    · simp [zero32]
  unfold GetInputSignatureHashW
  simp only [index, hi, work_free_ok_bind, ht, if_false, hc]
  rw [work_bind_count, hp, cp]
  dsimp only
  rw [work_bind_count, hq, cq]
  dsimp only
  rw [work_bind_count, ho]
  dsimp only
  rw [work_bind_count, sha256dW_res, sha256dW_count]
  simp only [List.length_append, lp, lq, lo, ReverseBytes_eq, varInt_compact _ hcl, putUint32_eq, putUint64_eq, leBytes_length, work_pure_count, List.length_reverse]
  unfold digestWork
  simp only [outpoint, List.length_append, leBytes_length, List.length_reverse]
  omega

/-- C108: an input without previous transaction or script, and a number that is no input's, costs nothing. -/
theorem C108_digest_none (tx : Transaction) (idx : UInt32) (flag : UInt8)
    (h : ∀ i, tx.Inputs[idx.toNat]? = some i → i.PreviousTxID = [] ∨ i.PreviousTxScript = none) : (GetInputSignatureHashW H tx idx flag).count = 0 := by
  unfold GetInputSignatureHashW
  rcases hi : tx.Inputs[idx.toNat]? with _ | i
  · simp only [index, hi, work_free_bind]
  · simp only [index, hi, work_free_ok_bind]
    split_ifs with ht
    · rfl
    · rcases h i hi with h | h
      · exact absurd h ht
      · rw [h]; rfl

/-- C108: `Sign` hashes for the digest only what the digest hashes (the signer's own work is not counted). -/
theorem C108_sign (is : InternalSigner) (idx : UInt32) (tx : Transaction) :
    (is.SignW H idx tx).count = (GetInputSignatureHashW H tx idx (flagOrDefault is.SigHashFlag)).count := by
  unfold InternalSigner.SignW
  rw [work_bind_free]
  · rfl
  · intro a
    rw [work_bind_count, work_free_count]
    split <;> rfl

/-! ## All inputs -/

/-- The bytes hashed for the inputs a key signs, input by input. -/
noncomputable def autoWork (tx : Transaction) (h : Bytes) (flag : UInt8) : List Nat := by
  classical
  exact tx.Inputs.zipIdx.map fun p => if Selected h p.1 then digestWork tx p.2 flag p.1 (p.1.PreviousTxScript.getD []) else 0

/-- The inputs a key signs. -/
noncomputable def selectedInputs (tx : Transaction) (h : Bytes) : List Input := by
  classical
  exact tx.Inputs.filter fun i => Selected h i

open Classical in
theorem stepW_count (is : InternalSigner) (tx : Transaction) (hs : Sized tx) (hr : ReadableScripts tx) (k : Nat) (i : Input) (hi : tx.Inputs[k]? = some i) :
    (is.signAutoStepW H k tx).count = if Selected (H.ripemd160 (H.sha256 is.pubKey)) i then
      digestWork tx k (flagOrDefault is.SigHashFlag) i (i.PreviousTxScript.getD []) else 0 := by
  have hlt : k < tx.Inputs.length := (List.getElem?_eq_some_iff.mp hi).1
  have hk : (UInt32.ofNat k).toNat = k := by
    rw [UInt32.toNat_ofNat']; exact Nat.mod_eq_of_lt (by have := hs.1; omega)
  have hne : H.ripemd160 (H.sha256 is.pubKey) ≠ [] := by
    intro e; have := H.ripemd160_length (H.sha256 is.pubKey); rw [e] at this; simp at this
  have hgood := getPublicKeyHash_ok_iff i.PreviousTxScript (H.ripemd160 (H.sha256 is.pubKey))
  have key : ∀ h : Bytes, (if hexEncode h = hexEncode (Hash160 H is.pubKey) then
        (match (is.SignW H (UInt32.ofNat k) tx).res with
        | .ok tx' => (⟨(is.SignW H (UInt32.ofNat k) tx).count, .ok tx'⟩ : Work Transaction)
        | .err _ => ⟨(is.SignW H (UInt32.ofNat k) tx).count, .ok tx⟩
        | .panic => ⟨(is.SignW H (UInt32.ofNat k) tx).count, .panic⟩)
      else pure tx).count = if h = H.ripemd160 (H.sha256 is.pubKey) then (GetInputSignatureHashW H tx (UInt32.ofNat k) (flagOrDefault is.SigHashFlag)).count else 0 := by
    intro h
    by_cases e : h = H.ripemd160 (H.sha256 is.pubKey)
    · rw [if_pos (by rw [e]; rfl), if_pos e, ← C108_sign]
      rcases (is.SignW H (UInt32.ofNat k) tx).res with _ | _ | _ <;> rfl
    · have e' : ¬ hexEncode h = hexEncode (Hash160 H is.pubKey) := fun h' => e (hexEncode_inj h')
      rw [if_neg e', if_neg e]; rfl
  unfold InternalSigner.signAutoStepW
  rw [hi]
  simp only
  rcases hg : GetPublicKeyHash i.PreviousTxScript with h | e | _
  · refine (key h).trans ?_
    by_cases e : h = H.ripemd160 (H.sha256 is.pubKey)
    · subst e
      obtain ⟨c, hc, hb⟩ := hgood.mp hg
      rw [if_pos rfl]
      by_cases ht : i.PreviousTxID = []
      · rw [if_neg (fun h => h.1 ht), C108_digest_none]
        intro j hj
        rw [hk, hi] at hj; injection hj with hj; subst hj; exact Or.inl ht
      · rw [if_pos ⟨ht, c, hc, hb⟩, C108_digest H tx hs _ _ i c (by rw [hk]; exact hi) ht hc, hk, hc]; rfl
    · rw [if_neg e, if_neg]
      rintro ⟨-, h'⟩
      have := hgood.mpr h'
      rw [hg] at this; injection this with this; exact e this
  · refine (key []).trans ?_
    rw [if_neg (fun e => hne e.symm), if_neg]
    rintro ⟨-, h'⟩
    have := hgood.mpr h'
    rw [hg] at this; cases this
  · exact absurd hg (hr i (List.mem_of_getElem? hi))

theorem digestWork_same {tx tx' : Transaction} (h : SameButUnlocking tx tx') (k : Nat) (flag : UInt8) {i i' : Input} (e : ({ i with UnlockingScript := none } : Input) = { i' with UnlockingScript := none })
    (code : Bytes) : digestWork tx' k flag i' code = digestWork tx k flag i code := by
  have hp : prevoutsString tx' = prevoutsString tx := by
    have : ∀ l : List Input, l.flatMap outpoint = (l.map (fun i => ({ i with UnlockingScript := none } : Input))).flatMap outpoint := by
      intro l; rw [List.flatMap_map]; rfl
    unfold prevoutsString; rw [this, this tx.Inputs, h.2.2.2]
  have hq : sequenceString tx' = sequenceString tx := by
    have : ∀ l : List Input, (l.flatMap fun i => leBytes 4 i.SequenceNumber.toNat) = (l.map (fun i => ({ i with UnlockingScript := none } : Input))).flatMap fun i => leBytes 4 i.SequenceNumber.toNat := by
      intro l; rw [List.flatMap_map]
    unfold sequenceString; rw [this, this tx.Inputs, h.2.2.2]
  have ho : outputsString tx' k flag = outputsString tx k flag := by unfold outputsString; rw [h.2.2.1]
  simp only [Input.mk.injEq] at e
  have hx : outpoint i' = outpoint i := by unfold outpoint; rw [e.1, e.2.1]
  unfold digestWork
  rw [hp, hq, ho, hx]

theorem input_same_work {tx tx' : Transaction} (h : SameButUnlocking tx tx') {k : Nat} {i : Input} (hi : tx.Inputs[k]? = some i) :
    ∃ i', tx'.Inputs[k]? = some i' ∧ ({ i with UnlockingScript := none } : Input) = { i' with UnlockingScript := none } := by
  have := congrArg (·[k]?) h.2.2.2
  simp only [List.getElem?_map, hi, Option.map_some] at this
  obtain ⟨i', h1, h2⟩ := Option.map_eq_some_iff.mp this.symm
  exact ⟨i', h1, h2.symm⟩

theorem loopW_count (is : InternalSigner) (hz : SignerSized is) (hp : ∀ d, is.sign d ≠ .panic) (tx : Transaction) (hs : Sized tx) (hr : ReadableScripts tx) (n : Nat) :
    ∀ (i : Nat) (t : Transaction), SameButUnlocking tx t → i + n = tx.Inputs.length →
      (is.signAutoLoopW H n i t).count = ((autoWork tx (H.ripemd160 (H.sha256 is.pubKey)) (flagOrDefault is.SigHashFlag)).drop i).sum := by
  classical
  induction n with
  | zero =>
    intro i t _ hn
    rw [List.drop_of_length_le (by simp [autoWork]; omega)]; rfl
  | succ n ih =>
    intro i t ht hn
    have hlt : i < tx.Inputs.length := by omega
    have hi := List.getElem?_eq_getElem hlt
    obtain ⟨i', hi', e⟩ := input_same_work ht hi
    rw [InternalSigner.signAutoLoopW, work_bind_count, signAutoStepW_res, step_eq H is hz hp t (sized_same hs ht) (readable_same ht hr),
      stepW_count H is t (sized_same hs ht) (readable_same ht hr) i i' hi']
    dsimp only
    rw [ih (i + 1) _ (ht.trans (setUnlocking_same _ _ _)) (by omega)]
    have hl : i < (autoWork tx (H.ripemd160 (H.sha256 is.pubKey)) (flagOrDefault is.SigHashFlag)).length := by simp [autoWork]; omega
    rw [List.drop_eq_getElem_cons hl, List.sum_cons]
    congr 1
    simp only [autoWork, List.getElem_map, List.getElem_zipIdx, Nat.zero_add]
    have e2 := e
    simp only [Input.mk.injEq] at e2
    have hsel : Selected (H.ripemd160 (H.sha256 is.pubKey)) i' ↔ Selected (H.ripemd160 (H.sha256 is.pubKey)) tx.Inputs[i] := by
      unfold Selected; rw [e2.1, e2.2.2.2.1]
    rw [digestWork_same ht i _ e, ← e2.2.2.2.1]
    simp only [hsel]

/-- C108: `SignAuto` hashes, for each input the key signs, everything the digest of that input takes, and nothing for the others. -/
theorem C108_auto (is : InternalSigner) (hz : SignerSized is) (hp : ∀ d, is.sign d ≠ .panic) (tx : Transaction) (hs : Sized tx) (hr : ReadableScripts tx) :
    (is.SignAutoW H tx).count = (autoWork tx (H.ripemd160 (H.sha256 is.pubKey)) (flagOrDefault is.SigHashFlag)).sum := by
  unfold InternalSigner.SignAutoW
  rw [loopW_count H is hz hp tx hs hr _ 0 tx (SameButUnlocking.refl tx) (by omega), List.drop_zero]

/-! ## How it grows -/

theorem outpoint_length {i : Input} (h : IsTxId i.PreviousTxID) : (outpoint i).length = 36 := by
  have := internal_length h
  simp only [internal, List.length_reverse] at this
  simp [outpoint, this]

theorem prevouts_length {tx : Transaction} (h : ∀ i ∈ tx.Inputs, IsTxId i.PreviousTxID) : (prevoutsString tx).length = 36 * tx.Inputs.length := by
  unfold prevoutsString
  have : ∀ l : List Input, (∀ i ∈ l, IsTxId i.PreviousTxID) → (l.flatMap outpoint).length = 36 * l.length := by
    intro l
    induction l with
    | nil => intro _; rfl
    | cons a l ih => intro h; rw [List.flatMap_cons, List.length_append, outpoint_length (h a (by simp)), ih (fun i hi => h i (by simp [hi]))]; simp; omega
  exact this _ h

theorem sequence_length (tx : Transaction) : (sequenceString tx).length = 4 * tx.Inputs.length := by
  unfold sequenceString
  induction tx.Inputs with
  | nil => rfl
  | cons a l ih => rw [List.flatMap_cons, List.length_append, ih]; simp; omega

theorem compactSize_le_nine (n : Nat) : 1 ≤ (compactSize n).length ∧ (compactSize n).length ≤ 9 := by
  unfold compactSize
  split_ifs <;> simp

theorem outputsString_le (tx : Transaction) (k : Nat) (flag : UInt8) : ((outputsString tx k flag).getD []).length ≤ outputsSize tx := by
  unfold outputsString outputsSize
  split_ifs
  · simp
  · rcases h : tx.Outputs[k]? with _ | o
    · simp
    · obtain ⟨hk, rfl⟩ := List.getElem?_eq_some_iff.mp h
      simp only [Option.map_some, Option.getD_some]
      rw [List.length_flatMap]
      exact List.single_le_sum (fun _ _ => Nat.zero_le _) _ (List.mem_map.mpr ⟨_, List.getElem_mem hk, rfl⟩)
  · exact Nat.le_refl _

/-- The digest of one input, whatever the flag, takes at most 40 bytes per input of the transaction, its outputs, the script and 165. -/
theorem digestWork_le {tx : Transaction} (h : ∀ i ∈ tx.Inputs, IsTxId i.PreviousTxID) (k : Nat) (flag : UInt8) {inp : Input} (hi : inp ∈ tx.Inputs) (code : Bytes) :
    digestWork tx k flag inp code ≤ 40 * tx.Inputs.length + outputsSize tx + code.length + 165 := by
  have h1 := prevouts_length h
  have h2 := sequence_length tx
  have h3 := outputsString_le tx k flag
  have h4 := outpoint_length (h inp hi)
  have h5 := (compactSize_le_nine code.length).2
  unfold digestWork
  split_ifs <;> omega

/-- C108, every flag: signing everything a key can sign hashes at most that for each signed input. -/
theorem C108_upper (is : InternalSigner) (hz : SignerSized is) (hp : ∀ d, is.sign d ≠ .panic) (tx : Transaction) (hs : Sized tx) (hr : ReadableScripts tx)
    (ht : ∀ i ∈ tx.Inputs, IsTxId i.PreviousTxID) :
    (is.SignAutoW H tx).count ≤ ((selectedInputs tx (H.ripemd160 (H.sha256 is.pubKey))).map fun i =>
      40 * tx.Inputs.length + outputsSize tx + (i.PreviousTxScript.getD []).length + 165).sum := by
  classical
  rw [C108_auto H is hz hp tx hs hr]
  unfold autoWork selectedInputs
  suffices hh : ∀ (l : List Input) (k : Nat), (∀ i ∈ l, i ∈ tx.Inputs) →
      ((l.zipIdx k).map fun p => if Selected (H.ripemd160 (H.sha256 is.pubKey)) p.1 then digestWork tx p.2 (flagOrDefault is.SigHashFlag) p.1 (p.1.PreviousTxScript.getD []) else 0).sum ≤
      ((l.filter fun i => Selected (H.ripemd160 (H.sha256 is.pubKey)) i).map fun i => 40 * tx.Inputs.length + outputsSize tx + (i.PreviousTxScript.getD []).length + 165).sum from
    hh _ 0 (fun _ h => h)
  intro l
  induction l with
  | nil => intro k _; simp
  | cons a l ih =>
    intro k hm
    have := ih (k + 1) (fun i hi => hm i (by simp [hi]))
    rw [List.zipIdx_cons, List.map_cons, List.sum_cons]
    by_cases hsel : Selected (H.ripemd160 (H.sha256 is.pubKey)) a
    · rw [List.filter_cons_of_pos (by simpa using hsel), List.map_cons, List.sum_cons, if_pos hsel]
      have := digestWork_le ht k (flagOrDefault is.SigHashFlag) (hm a (by simp)) (a.PreviousTxScript.getD [])
      dsimp only
      omega
    · rw [List.filter_cons_of_neg (by simpa using hsel), if_neg hsel]; omega

/-- C108, the usual flags (neither ANYONECANPAY nor NONE nor SINGLE; flag 0 is one of them): the 40 bytes per input and the outputs, the same for every signed input, are hashed anew for every one. -/
theorem C108_repeated (is : InternalSigner) (hz : SignerSized is) (hp : ∀ d, is.sign d ≠ .panic) (tx : Transaction) (hs : Sized tx) (hr : ReadableScripts tx)
    (ht : ∀ i ∈ tx.Inputs, IsTxId i.PreviousTxID) (hf : anyoneCanPay (flagOrDefault is.SigHashFlag) = false ∧ isNone (flagOrDefault is.SigHashFlag) = false ∧ isSingle (flagOrDefault is.SigHashFlag) = false) :
    (is.SignAutoW H tx).count = (selectedInputs tx (H.ripemd160 (H.sha256 is.pubKey))).length * (40 * tx.Inputs.length + outputsSize tx) +
      ((selectedInputs tx (H.ripemd160 (H.sha256 is.pubKey))).map fun i =>
        156 + (compactSize (i.PreviousTxScript.getD []).length).length + (i.PreviousTxScript.getD []).length).sum := by
  classical
  rw [C108_auto H is hz hp tx hs hr]
  unfold autoWork selectedInputs
  suffices hh : ∀ (l : List Input) (k : Nat), (∀ i ∈ l, i ∈ tx.Inputs) →
      ((l.zipIdx k).map fun p => if Selected (H.ripemd160 (H.sha256 is.pubKey)) p.1 then digestWork tx p.2 (flagOrDefault is.SigHashFlag) p.1 (p.1.PreviousTxScript.getD []) else 0).sum =
      (l.filter fun i => Selected (H.ripemd160 (H.sha256 is.pubKey)) i).length * (40 * tx.Inputs.length + outputsSize tx) +
      ((l.filter fun i => Selected (H.ripemd160 (H.sha256 is.pubKey)) i).map fun i =>
        156 + (compactSize (i.PreviousTxScript.getD []).length).length + (i.PreviousTxScript.getD []).length).sum from
    hh _ 0 (fun _ h => h)
  have hd : ∀ i ∈ tx.Inputs, ∀ k code, digestWork tx k (flagOrDefault is.SigHashFlag) i code = 40 * tx.Inputs.length + outputsSize tx + (156 + (compactSize code.length).length + code.length) := by
    intro i hi k code
    have h1 := prevouts_length ht
    have h2 := sequence_length tx
    have h4 := outpoint_length (ht i hi)
    unfold digestWork outputsString outputsSize
    rw [hf.1, hf.2.1, hf.2.2]
    simp only [Bool.or_self, Bool.false_eq_true, if_false, Option.getD_some]
    omega
  intro l
  induction l with
  | nil => intro k _; simp
  | cons a l ih =>
    intro k hm
    have := ih (k + 1) (fun i hi => hm i (by simp [hi]))
    rw [List.zipIdx_cons, List.map_cons, List.sum_cons, this]
    by_cases hsel : Selected (H.ripemd160 (H.sha256 is.pubKey)) a
    · rw [List.filter_cons_of_pos (by simpa using hsel), List.map_cons, List.sum_cons, if_pos hsel, hd a (hm a (by simp)), List.length_cons, Nat.add_mul]
      dsimp only
      omega
    · rw [List.filter_cons_of_neg (by simpa using hsel), if_neg hsel]; omega

/-- C108: so signing a transaction all of whose `n` inputs the key signs hashes at least `40 n²` bytes: the work is not linear in the size of the transaction. -/
theorem C108_quadratic (is : InternalSigner) (hz : SignerSized is) (hp : ∀ d, is.sign d ≠ .panic) (tx : Transaction) (hs : Sized tx) (hr : ReadableScripts tx)
    (ht : ∀ i ∈ tx.Inputs, IsTxId i.PreviousTxID) (hf : anyoneCanPay (flagOrDefault is.SigHashFlag) = false ∧ isNone (flagOrDefault is.SigHashFlag) = false ∧ isSingle (flagOrDefault is.SigHashFlag) = false)
    (hall : ∀ i ∈ tx.Inputs, Selected (H.ripemd160 (H.sha256 is.pubKey)) i) :
    40 * tx.Inputs.length ^ 2 ≤ (is.SignAutoW H tx).count := by
  classical
  rw [C108_repeated H is hz hp tx hs hr ht hf]
  have : selectedInputs tx (H.ripemd160 (H.sha256 is.pubKey)) = tx.Inputs := by
    unfold selectedInputs
    exact List.filter_eq_self.mpr (by simpa using hall)
  rw [this]
  have : 40 * tx.Inputs.length ^ 2 = tx.Inputs.length * (40 * tx.Inputs.length) := by ring
  rw [this, Nat.mul_add]; omega

/-- A transaction with three inputs of the toy key. -/
def exAll : Transaction :=
  { exSpend with
    Inputs := [49, 50, 51].map fun c =>
      { PreviousTxID := List.replicate 64 c, PreviousTxOutIndex := 1, PreviousTxSatoshis := 5,
        PreviousTxScript := some (p2pkh (toyH.ripemd160 (toyH.sha256 toySigner.pubKey))), UnlockingScript := none, SequenceNumber := 1 } }

/-- It meets the hypotheses of `C108_quadratic`; its prevouts, sequences and outputs are hashed three times each. -/
example : SignerSized toySigner ∧ (∀ d, toySigner.sign d ≠ .panic) ∧ Sized exAll ∧ ReadableScripts exAll ∧ (∀ i ∈ exAll.Inputs, IsTxId i.PreviousTxID) ∧
    (anyoneCanPay (flagOrDefault toySigner.SigHashFlag) = false ∧ isNone (flagOrDefault toySigner.SigHashFlag) = false ∧ isSingle (flagOrDefault toySigner.SigHashFlag) = false) ∧
    (∀ i ∈ exAll.Inputs, Selected (toyH.ripemd160 (toyH.sha256 toySigner.pubKey)) i) ∧
    (toySigner.SignAutoW toyH exAll).count = 3 * (40 * 3 + outputsSize exAll) + 3 * (156 + 1 + 25) := by
  have hsc : ∀ i ∈ exAll.Inputs, i.PreviousTxScript = some (p2pkh (toyH.ripemd160 (toyH.sha256 toySigner.pubKey))) := by decide +kernel
  refine ⟨toySigner_sized, (by intro d h; cases h), ⟨by decide +kernel, by decide +kernel, by decide +kernel, ?_⟩, ?_, by decide +kernel, by decide +kernel, ?_, by decide +kernel⟩
  · intro i hi s hs
    rw [hsc i hi] at hs; injection hs with hs; rw [← hs]; decide +kernel
  · unfold ReadableScripts; decide +kernel
  · intro i hi
    have hid : ∀ i ∈ exAll.Inputs, i.PreviousTxID ≠ [] := by decide +kernel
    exact selected_p2pkh _ (toyH.ripemd160_length _) _ (hid i hi) (hsc i hi)

/-- With ANYONECANPAY|NONE nothing grows: only the preimage itself is hashed. -/
example : digestWork exAll 0 0xc2 (exAll.Inputs.getD 0 Input.New) [1, 2] = 120 + 36 + 1 + 2 := by decide +kernel

end Verif.Props
