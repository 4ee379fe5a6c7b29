import Verif.Spec.Handover
import Verif.Props.Spend
/-!
# C110: handing a transaction from one signer to the next as bytes
-/
namespace Verif.Props
open Verif Spec Transaction

/-! ## Transactions that are the same to a signer -/

theorem hexDecode_lower : ∀ s : Bytes, (hexDecode (s.map lowerChar)).1 = (hexDecode s).1
  | [] => rfl
  | [c] => by
    simp only [List.map_cons, List.map_nil, hexDecode]
    cases fromHexChar (lowerChar c) <;> cases fromHexChar c <;> rfl
  | a :: b :: rest => by
    have h : ∀ c : UInt8, fromHexChar (lowerChar c) = fromHexChar c := by apply forall_uint8; decide +kernel
    have ih := hexDecode_lower rest
    simp only [List.map_cons, hexDecode, h]
    cases fromHexChar a <;> cases fromHexChar b <;> simp [ih]

theorem hexDecodeIgnore_case {s t : Bytes} (h : s.map lowerChar = t.map lowerChar) : hexDecodeIgnore s = hexDecodeIgnore t := by
  unfold hexDecodeIgnore
  rw [← hexDecode_lower s, ← hexDecode_lower t, h]

theorem sameSpend_nil {i j : Input} (h : SameSpend i j) : i.PreviousTxID = [] ↔ j.PreviousTxID = [] := by
  have := congrArg List.length h.txid
  simp only [List.length_map] at this
  rw [← List.length_eq_zero_iff, ← List.length_eq_zero_iff, this]

theorem forall₂_at {α β : Type} {R : α → β → Prop} {l : List α} {l' : List β} (h : List.Forall₂ R l l') :
    ∀ k : Nat, (l[k]? = none ∧ l'[k]? = none) ∨ ∃ i j, l[k]? = some i ∧ l'[k]? = some j ∧ R i j := by
  induction h with
  | nil => intro k; left; simp
  | cons hr _ ih =>
    intro k
    cases k with
    | zero => right; exact ⟨_, _, rfl, rfl, hr⟩
    | succ k => simpa using ih k

theorem forall₂_set {α β : Type} {R : α → β → Prop} {l : List α} {l' : List β} (h : List.Forall₂ R l l') {x : α} {y : β} (hr : R x y) :
    ∀ k : Nat, List.Forall₂ R (l.set k x) (l'.set k y) := by
  induction h with
  | nil => intro k; simp
  | cons h1 h2 ih =>
    intro k
    cases k with
    | zero => exact .cons hr h2
    | succ k => exact .cons h1 (ih k)

theorem forall₂_flatMap {α β γ : Type} {R : α → β → Prop} {l : List α} {l' : List β} (f : α → List γ) (g : β → List γ) (hf : ∀ a b, R a b → f a = g b)
    (h : List.Forall₂ R l l') : l.flatMap f = l'.flatMap g := by
  induction h with
  | nil => rfl
  | cons h1 _ ih => simp only [List.flatMap_cons, hf _ _ h1, ih]

theorem sameTx_refl (tx : Transaction) : SameTx tx tx := ⟨rfl, rfl, rfl, List.forall₂_same.mpr fun _ _ => ⟨rfl, rfl, rfl, rfl, rfl, rfl⟩⟩

theorem sameTx_toBytes {tx tx' : Transaction} (h : SameTx tx tx') : tx.ToBytes = tx'.ToBytes := by
  rw [tx_toBytes_eq, tx_toBytes_eq, h.version, h.locktime, h.outputs, h.inputs.length_eq]
  have : tx.Inputs.flatMap (fun i => i.ToBytes false) = tx'.Inputs.flatMap (fun i => i.ToBytes false) := by
    refine forall₂_flatMap _ _ ?_ h.inputs
    intro a b r
    rw [input_toBytes_eq, input_toBytes_eq, r.index, r.sequence, r.unlocking, hexDecodeIgnore_case r.txid]
  rw [this]

theorem sameTx_sighash (H : HashFns) {tx tx' : Transaction} (h : SameTx tx tx') (idx : UInt32) (flag : UInt8) :
    tx.GetInputSignatureHash H idx flag = tx'.GetInputSignatureHash H idx flag := by
  have e1 : getPrevoutHash H tx = getPrevoutHash H tx' := by
    unfold getPrevoutHash
    congr 1
    refine forall₂_flatMap _ _ ?_ h.inputs
    intro a b r
    simp only [r.index, hexDecodeIgnore_case r.txid]
  have e2 : getSequenceHash H tx = getSequenceHash H tx' := by
    unfold getSequenceHash
    congr 1
    refine forall₂_flatMap _ _ ?_ h.inputs
    intro a b r
    simp only [r.sequence]
  have e3 : ∀ n, getOutputsHash H tx n = getOutputsHash H tx' n := by
    intro n
    unfold getOutputsHash
    rw [h.outputs]
  rcases forall₂_at h.inputs idx.toNat with ⟨h1, h2⟩ | ⟨i, j, h1, h2, r⟩
  · simp only [GetInputSignatureHash, index, h1, h2, Res.panic_bind]
  · simp only [GetInputSignatureHash, index, h1, h2, Res.ok_bind, sameSpend_nil r, r.script, r.index, r.satoshis, r.sequence, hexDecodeIgnore_case r.txid, e1, e2, e3,
      h.version, h.locktime, h.outputs]

/-- The two results are both panics, the same error, or the same to a signer. -/
def SameRes (r r' : Res Transaction) : Prop :=
  (r = .panic ∧ r' = .panic) ∨ (∃ e, r = .err e ∧ r' = .err e) ∨ ∃ t t', r = .ok t ∧ r' = .ok t' ∧ SameTx t t'

theorem sameTx_apply {tx tx' : Transaction} (h : SameTx tx tx') (idx : UInt32) (s : Script) :
    SameRes (tx.ApplyUnlockingScript idx s) (tx'.ApplyUnlockingScript idx s) := by
  rcases forall₂_at h.inputs idx.toNat with ⟨h1, h2⟩ | ⟨i, j, h1, h2, r⟩
  · left; simp [ApplyUnlockingScript, index, h1, h2]
  · right; right
    refine ⟨{ tx with Inputs := tx.Inputs.set idx.toNat { i with UnlockingScript := some s } },
      { tx' with Inputs := tx'.Inputs.set idx.toNat { j with UnlockingScript := some s } }, by simp [ApplyUnlockingScript, index, h1],
      by simp [ApplyUnlockingScript, index, h2], h.version, h.locktime, h.outputs, ?_⟩
    refine forall₂_set h.inputs (x := { i with UnlockingScript := some s }) (y := { j with UnlockingScript := some s }) ?_ _
    exact ⟨r.txid, r.index, r.satoshis, r.script, rfl, r.sequence⟩

theorem sameTx_sign (H : HashFns) (is : InternalSigner) {tx tx' : Transaction} (h : SameTx tx tx') (idx : UInt32) :
    SameRes (is.Sign H idx tx) (is.Sign H idx tx') := by
  rw [sign_eq, sign_eq, sameTx_sighash H h]
  rcases tx'.GetInputSignatureHash H idx (flagOrDefault is.SigHashFlag) with sh | e | _
  · rw [Res.ok_bind, Res.ok_bind]
    rcases is.sign sh.reverse with sig | e | _
    · rw [Res.ok_bind, Res.ok_bind]; exact sameTx_apply h _ _
    · exact Or.inr (Or.inl ⟨e, rfl, rfl⟩)
    · exact Or.inl ⟨rfl, rfl⟩
  · exact Or.inr (Or.inl ⟨e, rfl, rfl⟩)
  · exact Or.inl ⟨rfl, rfl⟩

theorem sameTx_step (H : HashFns) (is : InternalSigner) {tx tx' : Transaction} (h : SameTx tx tx') (k : Nat) :
    SameRes (is.signAutoStep H k tx) (is.signAutoStep H k tx') := by
  have same : SameRes (.ok tx) (.ok tx') := Or.inr (Or.inr ⟨_, _, rfl, rfl, h⟩)
  unfold InternalSigner.signAutoStep
  rcases forall₂_at h.inputs k with ⟨h1, h2⟩ | ⟨i, j, h1, h2, r⟩
  · rw [h1, h2]; exact same
  · rw [h1, h2]
    dsimp only
    rw [r.script]
    have hs := sameTx_sign H is h (UInt32.ofNat k)
    have key : ∀ c : Prop, [Decidable c] → SameRes
        (if c then (match is.Sign H (UInt32.ofNat k) tx with | .ok t => .ok t | .err _ => .ok tx | .panic => .panic) else .ok tx)
        (if c then (match is.Sign H (UInt32.ofNat k) tx' with | .ok t => .ok t | .err _ => .ok tx' | .panic => .panic) else .ok tx') := by
      intro c _
      by_cases hc : c
      · rw [if_pos hc, if_pos hc]
        rcases hs with ⟨a, b⟩ | ⟨e, a, b⟩ | ⟨t, t', a, b, q⟩ <;> rw [a, b]
        · exact Or.inl ⟨rfl, rfl⟩
        · exact same
        · exact Or.inr (Or.inr ⟨_, _, rfl, rfl, q⟩)
      · rw [if_neg hc, if_neg hc]; exact same
    rcases GetPublicKeyHash j.PreviousTxScript with a | a | _
    · exact key _
    · exact key _
    · exact Or.inl ⟨rfl, rfl⟩

theorem sameTx_loop (H : HashFns) (is : InternalSigner) (n : Nat) : ∀ (k : Nat) {tx tx' : Transaction}, SameTx tx tx' →
    SameRes (is.signAutoLoop H n k tx) (is.signAutoLoop H n k tx') := by
  induction n with
  | zero => intro k tx tx' h; exact Or.inr (Or.inr ⟨_, _, rfl, rfl, h⟩)
  | succ n ih =>
    intro k tx tx' h
    simp only [InternalSigner.signAutoLoop]
    rcases sameTx_step H is h k with ⟨a, b⟩ | ⟨e, a, b⟩ | ⟨t, t', a, b, q⟩ <;> rw [a, b]
    · exact Or.inl ⟨rfl, rfl⟩
    · exact Or.inr (Or.inl ⟨e, rfl, rfl⟩)
    · exact ih _ q

theorem sameTx_auto (H : HashFns) (is : InternalSigner) {tx tx' : Transaction} (h : SameTx tx tx') : SameRes (is.SignAuto H tx) (is.SignAuto H tx') := by
  unfold InternalSigner.SignAuto
  rw [h.inputs.length_eq]
  exact sameTx_loop H is _ _ h

/-- The results of a job on two transactions that are the same to a signer: both panic, or both return the same error (or none) and the same transaction. -/
theorem sameTx_job (H : HashFns) (j : SignJob) {tx tx' : Transaction} (h : SameTx tx tx') :
    (j.run H tx = .panic ∧ j.run H tx' = .panic) ∨ ∃ t t' e, j.run H tx = .ok (t, e) ∧ j.run H tx' = .ok (t', e) ∧ SameTx t t' := by
  cases j with
  | one is idx =>
    simp only [SignJob.run, Transaction.Sign]
    rcases sameTx_sign H is h idx with ⟨a, b⟩ | ⟨e, a, b⟩ | ⟨t, t', a, b, q⟩ <;> rw [a, b]
    · exact Or.inl ⟨rfl, rfl⟩
    · exact Or.inr ⟨_, _, _, rfl, rfl, h⟩
    · exact Or.inr ⟨_, _, _, rfl, rfl, q⟩
  | auto is =>
    simp only [SignJob.run, Transaction.SignAuto]
    rcases sameTx_auto H is h with ⟨a, b⟩ | ⟨e, a, b⟩ | ⟨t, t', a, b, q⟩ <;> rw [a, b]
    · exact Or.inl ⟨rfl, rfl⟩
    · exact Or.inr ⟨_, _, _, rfl, rfl, h⟩
    · exact Or.inr ⟨_, _, _, rfl, rfl, q⟩

theorem isTxId_lowerChars (t : Bytes) : (t.map lowerChar).map lowerChar = t.map lowerChar := by
  have h : ∀ c : UInt8, lowerChar (lowerChar c) = lowerChar c := by apply forall_uint8; decide +kernel
  simp [List.map_map, Function.comp_def, h]

theorem withPrevious_wire (tx : Transaction) : SameTx tx (withPrevious (wireTx tx) (previousOutputs tx)) := by
  refine ⟨rfl, rfl, rfl, ?_⟩
  simp only [withPrevious, wireTx, previousOutputs]
  induction tx.Inputs with
  | nil => exact .nil
  | cons i is ih => exact .cons ⟨(isTxId_lowerChars _).symm, rfl, rfl, rfl, by simp [wireInput], rfl⟩ ih

/-! ## C110 -/

/-- C110 (a): the bytes do not carry what a signer needs. In every transaction obtained by parsing, asking for a signature hash or signing an input fails (with
an error for each existing input), and `SignAuto` signs nothing and reports no error, even for keys that the inputs pay to. -/
theorem C110_parsed (H : HashFns) (d sp : Bytes) (hcap : d.length + sp.length < 2 ^ 62) (tx : Transaction) (h : Transaction.NewFromBytes ⟨d, sp⟩ = .ok tx) :
    (∀ idx flag, idx.toNat < tx.Inputs.length → tx.GetInputSignatureHash H idx flag = .err "'PreviousTxScript' not supplied") ∧
    (∀ is idx, idx.toNat < tx.Inputs.length → tx.Sign H idx is = .ok (tx, some "'PreviousTxScript' not supplied")) ∧
    (∀ is, tx.SignAuto H is = .ok (tx, none)) := by
  obtain ⟨hw, hid⟩ := isTx_wire ((tx_parse_iff _ _ hcap _).mp h)
  have hnone : ∀ i ∈ tx.Inputs, i.PreviousTxScript = none := by
    intro i hi
    rw [← hw] at hi
    simp only [wireTx, List.mem_map] at hi
    obtain ⟨j, _, rfl⟩ := hi
    rfl
  have h1 : ∀ (idx : UInt32) (flag : UInt8), idx.toNat < tx.Inputs.length → tx.GetInputSignatureHash H idx flag = .err "'PreviousTxScript' not supplied" := by
    intro idx flag hlt
    have hi := List.getElem?_eq_getElem hlt
    have hm := List.mem_of_getElem? hi
    have hne : (tx.Inputs[idx.toNat]'hlt).PreviousTxID ≠ [] := by
      intro e; have := (hid _ hm).1; rw [e] at this; simp at this
    simp [GetInputSignatureHash, index, hi, hne, hnone _ hm]
  refine ⟨h1, ?_, ?_⟩
  · intro is idx hlt
    have : is.Sign H idx tx = .err "'PreviousTxScript' not supplied" := by
      rw [sign_eq, h1 _ _ hlt]; rfl
    simp [Transaction.Sign, this]
  · intro is
    have hstep : ∀ k, is.signAutoStep H k tx = .ok tx := by
      intro k
      unfold InternalSigner.signAutoStep
      rcases hk : tx.Inputs[k]? with _ | i
      · rfl
      · have hx : ¬ hexEncode [] = hexEncode (Hash160 H is.pubKey) := by
          intro e
          have := H.ripemd160_length (H.sha256 is.pubKey)
          rw [show H.ripemd160 (H.sha256 is.pubKey) = Hash160 H is.pubKey from rfl, ← hexEncode_inj e] at this
          simp at this
        simp only [hnone i (List.mem_of_getElem? hk), GetPublicKeyHash, if_neg hx]
    have hloop : ∀ n k, is.signAutoLoop H n k tx = .ok tx := by
      intro n
      induction n with
      | zero => intro k; rfl
      | succ n ih => intro k; simp only [InternalSigner.signAutoLoop, hstep, Res.ok_bind, ih]
    simp [Transaction.SignAuto, InternalSigner.SignAuto, hloop]

/-- C110 (b): put the previous scripts and amounts back, and every signature hash, for every input and flag, is what the sender would have computed: the
transaction went through bytes (or through hex text) without changing what is signed. -/
theorem C110_hash (H : HashFns) (tx : Transaction) (ht : ∀ i ∈ tx.Inputs, IsTxId i.PreviousTxID) (sp : Bytes) (hcap : 2 * tx.ToBytes.length + sp.length < 2 ^ 62) :
    ∃ t, Transaction.NewFromBytes ⟨tx.ToBytes, sp⟩ = .ok t ∧ Transaction.NewFromString sp tx.ToString = .ok t ∧
      ∀ idx flag, (withPrevious t (previousOutputs tx)).GetInputSignatureHash H idx flag = tx.GetInputSignatureHash H idx flag := by
  refine ⟨wireTx tx, C33_parse_serialise tx ht sp (by omega), C33_parse_serialise_string tx ht sp ?_, ?_⟩
  · simp only [Transaction.ToString, hexEncode_length]; omega
  · intro idx flag
    exact (sameTx_sighash H (withPrevious_wire tx) idx flag).symm

/-- C110 (c): a party that receives the bytes, puts the previous outputs back, signs one input or all its inputs and sends the result on sends exactly the bytes
that the first process would have got by letting that party sign in memory, and reports the same error if any; one panics exactly when the other does. -/
theorem C110_party (H : HashFns) (tx : Transaction) (ht : ∀ i ∈ tx.Inputs, IsTxId i.PreviousTxID) (sp : Bytes) (hcap : tx.ToBytes.length + sp.length < 2 ^ 62)
    (j : SignJob) :
    j.onBytes H (previousOutputs tx) sp tx.ToBytes = (j.run H tx >>= fun r => .ok (r.1.ToBytes, r.2)) := by
  unfold SignJob.onBytes
  rw [C33_parse_serialise tx ht sp hcap, Res.ok_bind]
  rcases sameTx_job H j (withPrevious_wire tx) with ⟨a, b⟩ | ⟨t, t', e, a, b, q⟩ <;> rw [a, b]
  · rfl
  · simp only [Res.ok_bind, Res.pure_eq, sameTx_toBytes q]

/-- Signing keeps txids and previous outputs. -/
theorem job_keeps (H : HashFns) (j : SignJob) (tx t : Transaction) (e : Option String) (h : j.run H tx = .ok (t, e)) : SameButUnlocking tx t := by
  have hap : ∀ (tx t : Transaction) (idx : UInt32) (s : Script), tx.ApplyUnlockingScript idx s = .ok t → SameButUnlocking tx t := by
    intro tx t idx s h
    have hlt : idx.toNat < tx.Inputs.length := by
      by_contra hc
      simp [ApplyUnlockingScript, index, List.getElem?_eq_none (Nat.le_of_not_lt hc)] at h
    rw [applyUnlocking_eq s hlt] at h
    injection h with h
    subst h
    exact withUnlocking_same _ _ _
  have hsign : ∀ (is : InternalSigner) (idx : UInt32) (tx t : Transaction), is.Sign H idx tx = .ok t → SameButUnlocking tx t := by
    intro is idx tx t h
    rw [sign_eq] at h
    obtain ⟨sh, _, h⟩ := Res.bind_eq_ok.mp h
    obtain ⟨sig, _, h⟩ := Res.bind_eq_ok.mp h
    exact hap _ _ _ _ h
  have hstep : ∀ (is : InternalSigner) (k : Nat) (tx t : Transaction), is.signAutoStep H k tx = .ok t → SameButUnlocking tx t := by
    intro is k tx t h
    unfold InternalSigner.signAutoStep at h
    rcases hk : tx.Inputs[k]? with _ | i <;> rw [hk] at h
    · injection h with h; subst h; exact SameButUnlocking.refl _
    · have key : ∀ (c : Prop) [Decidable c], (if c then (match is.Sign H (UInt32.ofNat k) tx with | .ok t => Res.ok t | .err _ => .ok tx | .panic => .panic) else .ok tx) = .ok t →
          SameButUnlocking tx t := by
        intro c _ h
        by_cases hc : c
        · rw [if_pos hc] at h
          rcases hs : is.Sign H (UInt32.ofNat k) tx with u | u | _ <;> rw [hs] at h
          · injection h with h; subst h; exact hsign _ _ _ _ hs
          · injection h with h; subst h; exact SameButUnlocking.refl _
          · cases h
        · rw [if_neg hc] at h
          injection h with h; subst h; exact SameButUnlocking.refl _
      rcases hg : GetPublicKeyHash i.PreviousTxScript with a | a | _ <;> simp only [hg] at h
      · exact key _ h
      · exact key _ h
      · cases h
  have hloop : ∀ (is : InternalSigner) (n k : Nat) (tx t : Transaction), is.signAutoLoop H n k tx = .ok t → SameButUnlocking tx t := by
    intro is n
    induction n with
    | zero => intro k tx t h; injection h with h; subst h; exact SameButUnlocking.refl _
    | succ n ih =>
      intro k tx t h
      obtain ⟨u, h1, h2⟩ := Res.bind_eq_ok.mp h
      exact (hstep _ _ _ _ h1).trans (ih _ _ _ h2)
  cases j with
  | one is idx =>
    simp only [SignJob.run, Transaction.Sign] at h
    rcases hs : is.Sign H idx tx with u | u | _ <;> rw [hs] at h
    · injection h with h; injection h with h _; subst h; exact hsign _ _ _ _ hs
    · injection h with h; injection h with h _; subst h; exact SameButUnlocking.refl _
    · cases h
  | auto is =>
    simp only [SignJob.run, Transaction.SignAuto] at h
    rcases hs : is.SignAuto H tx with u | u | _ <;> rw [hs] at h
    · injection h with h; injection h with h _; subst h; exact hloop _ _ _ _ _ hs
    · injection h with h; injection h with h _; subst h; exact SameButUnlocking.refl _
    · cases h

theorem previous_same {tx t : Transaction} (h : SameButUnlocking tx t) : previousOutputs t = previousOutputs tx := by
  have := congrArg (List.map fun i : Input => (i.PreviousTxScript, i.PreviousTxSatoshis)) h.2.2.2
  simp only [List.map_map] at this
  exact this.symm

theorem txids_same {tx t : Transaction} (h : SameButUnlocking tx t) (ht : ∀ i ∈ tx.Inputs, IsTxId i.PreviousTxID) : ∀ i ∈ t.Inputs, IsTxId i.PreviousTxID := by
  have e := congrArg (List.map fun i : Input => i.PreviousTxID) h.2.2.2
  simp only [List.map_map] at e
  intro i hi
  have : i.PreviousTxID ∈ t.Inputs.map (·.PreviousTxID) := List.mem_map_of_mem hi
  rw [show (t.Inputs.map (·.PreviousTxID)) = tx.Inputs.map (·.PreviousTxID) from e.symm] at this
  obtain ⟨j, hj, hji⟩ := List.mem_map.mp this
  rw [← hji]; exact ht j hj

/-- C110 (d): any number of parties, one after the other. If a transaction goes as bytes from party to party, each putting the previous outputs back and doing
its signing, the final bytes are those of one process doing all the signing in that order in memory; signatures already present survive every hop. -/
theorem C110_relay (H : HashFns) (js : List SignJob) (tx : Transaction) (ht : ∀ i ∈ tx.Inputs, IsTxId i.PreviousTxID)
    (hcap : ∀ n t, allInOne H (js.take n) tx = .ok t → t.ToBytes.length < 2 ^ 62) :
    relay H (previousOutputs tx) js tx.ToBytes = (allInOne H js tx >>= fun t => .ok t.ToBytes) := by
  suffices key : ∀ (js : List SignJob) (t : Transaction), SameButUnlocking tx t → (∀ n u, allInOne H (js.take n) t = .ok u → u.ToBytes.length < 2 ^ 62) →
      relay H (previousOutputs tx) js t.ToBytes = (allInOne H js t >>= fun t => .ok t.ToBytes) from key js tx (SameButUnlocking.refl _) hcap
  intro js
  induction js with
  | nil => intro t _ _; rfl
  | cons j js ih =>
    intro t hs hc
    have h0 := hc 0 t rfl
    simp only [relay, allInOne]
    rw [← previous_same hs, C110_party H t (txids_same hs ht) [] (by simpa using h0) j]
    rcases hr : j.run H t with ⟨u, e⟩ | e | _
    · simp only [Res.ok_bind]
      rw [previous_same hs]
      refine ih u (hs.trans (job_keeps H j t u e hr)) ?_
      intro n v hv
      exact hc (n + 1) v (by simp only [List.take_succ_cons, allInOne, hr, Res.ok_bind]; exact hv)
    · rfl
    · rfl

/-- Another toy key. -/
def toySigner2 : InternalSigner := { sign := fun d => .ok (d.take 5), pubKey := [3, 9], SigHashFlag := 0xc3 }

/-- Two inputs, one paying to each toy key; the first txid is in upper case. -/
def exTwo : Transaction :=
  { exSpend with Inputs := [
      { PreviousTxID := List.replicate 64 65, PreviousTxOutIndex := 1, PreviousTxSatoshis := 5,
        PreviousTxScript := some (p2pkh (toyH.ripemd160 (toyH.sha256 toySigner.pubKey))), UnlockingScript := none, SequenceNumber := 1 },
      { PreviousTxID := List.replicate 64 50, PreviousTxOutIndex := 7, PreviousTxSatoshis := 6,
        PreviousTxScript := some (p2pkh (toyH.ripemd160 (toyH.sha256 toySigner2.pubKey))), UnlockingScript := none, SequenceNumber := 2 }] }

/-- The hypotheses of C110 hold of `exTwo`, the two parties sign one input each, and the transaction grows at every hop. -/
example : (∀ i ∈ exTwo.Inputs, IsTxId i.PreviousTxID) ∧
    (allInOne toyH [.auto toySigner, .one toySigner2 1] exTwo >>= fun t => .ok (t.Inputs.map fun i => i.UnlockingScript.map List.length)) = .ok [some 15, some 10] := by
  decide +kernel

example : relay toyH (previousOutputs exTwo) [.auto toySigner, .one toySigner2 1] exTwo.ToBytes =
    (allInOne toyH [.auto toySigner, .one toySigner2 1] exTwo >>= fun t => .ok t.ToBytes) := by
  have small : ∀ l : List SignJob, (match allInOne toyH l exTwo with | .ok t => t.ToBytes.length | _ => 0) < 2 ^ 62 →
      ∀ t, allInOne toyH l exTwo = .ok t → t.ToBytes.length < 2 ^ 62 := by
    intro l h t ht
    rw [ht] at h; exact h
  refine C110_relay toyH _ exTwo (by decide +kernel) ?_
  intro n
  rcases n with _ | _ | n
  · exact small _ (by decide +kernel)
  · exact small _ (by decide +kernel)
  · refine small _ ?_
    have : ∀ x y : SignJob, List.take (n + 1 + 1) [x, y] = [x, y] := by intro x y; simp
    rw [this]
    decide +kernel

/-- C110, the trap: the same key on the same transaction. In memory `SignAuto` signs the input that pays to it; after a trip through bytes it signs nothing, and
reports no error in either case. -/
theorem C110_silent_violated : ∃ t t', exTwo.SignAuto toyH toySigner = .ok (t, none) ∧ t.ToBytes ≠ exTwo.ToBytes ∧
    Transaction.NewFromBytes (Slice.exact exTwo.ToBytes) = .ok t' ∧ t'.SignAuto toyH toySigner = .ok (t', none) ∧ t'.ToBytes = exTwo.ToBytes := by
  refine ⟨(match exTwo.SignAuto toyH toySigner with | .ok (t, _) => t | _ => exTwo), wireTx exTwo, ?_⟩
  decide +kernel

end Verif.Props
