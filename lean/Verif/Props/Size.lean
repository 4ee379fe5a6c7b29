import Verif.Props.SignAuto
import Verif.Props.TxLayout
import Verif.Props.TxBuild
import Verif.Props.Handover
import Mathlib.Algebra.BigOperators.Group.List.Basic
import Mathlib.Algebra.Order.BigOperators.Group.List
/-!
# C114: how large a transaction gets by signing

What a wallet needs to choose a fee before it signs.
-/
namespace Verif.Props
open Verif Verif.Spec

theorem push_length {d : Bytes} (h : d.length ≤ 75) : (push d).length = d.length + 1 := by
  simp only [push, if_pos h, List.length_cons]

theorem unlocking_length {sig pub : Bytes} (flag : UInt8) (h1 : sig.length ≤ 74) (h2 : pub.length ≤ 75) : (unlocking sig flag pub).length = sig.length + pub.length + 3 := by
  have : (sig ++ [flag]).length ≤ 75 := by simp; omega
  simp only [unlocking, List.length_append, push_length this, push_length h2, List.length_cons, List.length_nil]
  omega

/-- The bytes of an input with a proper txid. -/
def inputSize (i : Input) : Nat := 40 + compactLen (i.UnlockingScript.getD []).length + (i.UnlockingScript.getD []).length

theorem withUnlocking_set {tx : Transaction} {k : Nat} {inp : Input} (hi : tx.Inputs[k]? = some inp) (s : Bytes) :
    (withUnlocking tx k s).Inputs = tx.Inputs.set k { inp with UnlockingScript := some s } := by
  obtain ⟨hlt, he⟩ := List.getElem?_eq_some_iff.mp hi
  apply List.ext_getElem
  · simp [withUnlocking]
  · intro n h1 h2
    simp only [withUnlocking, List.getElem_mapIdx, List.getElem_set]
    by_cases h : n = k
    · subst h; simp [he]
    · rw [if_neg h, if_neg (fun e => h e.symm)]

theorem sum_set_nat (l : List Nat) (k : Nat) (a b : Nat) (h : l[k]? = some a) : (l.set k b).sum + a = l.sum + b := by
  induction l generalizing k with
  | nil => simp at h
  | cons x l ih =>
    cases k with
    | zero => simp at h; subst h; simp; omega
    | succ k => simp at h; have := ih k h; simp; omega

/-- C114 (a): signing an input that had no unlocking script, with a signature of at most 74 bytes and a public key of at most 75, makes the transaction longer by exactly the length of the
signature, the length of the key and 3 (two push prefixes and the flag byte). For a compressed key that is the signature and 36. -/
theorem C114_sign (H : HashFns) (is : InternalSigner) (hz : SignerSized is) (tx tx' : Transaction) (ht : ∀ i ∈ tx.Inputs, IsTxId i.PreviousTxID)
    (hsz : tx.ToBytes.length < 2 ^ 62) (idx : UInt32) (inp : Input) (hi : tx.Inputs[idx.toNat]? = some inp) (hu : inp.UnlockingScript.getD [] = [])
    (hpub : is.pubKey.length ≤ 75) (hsig : ∀ d sig, is.sign d = .ok sig → sig.length ≤ 74) (h : is.Sign H idx tx = .ok tx') :
    ∃ d sig, is.sign d = .ok sig ∧ tx'.ToBytes.length = tx.ToBytes.length + sig.length + is.pubKey.length + 3 := by
  obtain ⟨d, sig, hd, rfl⟩ : ∃ d sig, is.sign d = .ok sig ∧ tx' = withUnlocking tx idx.toNat (unlocking sig (flagOrDefault is.SigHashFlag) is.pubKey) := by
    rw [sign_eq] at h
    obtain ⟨sh, h1, h⟩ := Res.bind_eq_ok.mp h
    obtain ⟨sig, h2, h⟩ := Res.bind_eq_ok.mp h
    rw [newP2PKHUnlocking_eq _ (hz.2 _ _ h2) hz.1, applyUnlocking_eq _ (List.getElem?_eq_some_iff.mp hi).1] at h
    injection h with h
    exact ⟨_, sig, h2, h.symm⟩
  refine ⟨d, sig, hd, ?_⟩
  have hl := unlocking_length (flagOrDefault is.SigHashFlag) (hsig _ _ hd) hpub
  have ht' := txids_same (withUnlocking_same tx idx.toNat (unlocking sig (flagOrDefault is.SigHashFlag) is.pubKey)) ht
  obtain ⟨z1, z2, z3, z4⟩ := tx_sizes tx hsz
  rw [toBytes_size _ ht' ?_ z2 (by rw [withUnlocking_set hi, List.length_set]; exact z3) z4, C101_size _ ht hsz]
  rotate_left
  · intro i himem
    rw [withUnlocking_set hi] at himem
    rcases List.mem_or_eq_of_mem_set himem with hm | rfl
    · exact z1 i hm
    · have := hsig _ _ hd
      simp only [Option.getD_some, hl]; omega
  rw [withUnlocking_set hi, List.length_set]
  have hsum := sum_set_nat (tx.Inputs.map inputSize) idx.toNat (inputSize inp) (inputSize { inp with UnlockingScript := some (unlocking sig (flagOrDefault is.SigHashFlag) is.pubKey) })
    (by simp [hi])
  rw [← List.map_set] at hsum
  have e1 : inputSize inp = 41 := by simp [inputSize, hu, compactLen]
  have e2 : inputSize { inp with UnlockingScript := some (unlocking sig (flagOrDefault is.SigHashFlag) is.pubKey) } = 41 + (sig.length + is.pubKey.length + 3) := by
    have := hsig _ _ hd
    simp only [inputSize, Option.getD_some, hl, compactLen]
    rw [if_pos (by omega)]
    try omega
  rw [e1, e2] at hsum
  have h3 : (withUnlocking tx idx.toNat (unlocking sig (flagOrDefault is.SigHashFlag) is.pubKey)).Outputs = tx.Outputs := rfl
  rw [h3]
  have hfun : inputSize = fun i : Input => 40 + compactLen (i.UnlockingScript.getD []).length + (i.UnlockingScript.getD []).length := rfl
  rw [hfun] at hsum
  omega

theorem sum_bounds (l : List Input) (f : Input → Nat) (a b : Nat) (h : ∀ i ∈ l, a ≤ f i ∧ f i ≤ b) : l.length * a ≤ (l.map f).sum ∧ (l.map f).sum ≤ l.length * b := by
  induction l with
  | nil => simp
  | cons x l ih =>
    have h1 := ih fun i hi => h i (by simp [hi])
    have h2 := h x (by simp)
    simp only [List.length_cons, List.map_cons, List.sum_cons, Nat.add_mul, Nat.one_mul]
    omega

/-- C114 (b), the estimate for a fee: a transaction whose inputs are all unsigned and all spend P2PKH outputs of the key, and whose outputs are P2PKH, signed by `SignAuto` with a compressed key and
signatures of `lo` to `hi` bytes (at most 74), has between `lo + 77` and `hi + 77` bytes per input and 34 per output, besides 8 bytes and the two counts. -/
theorem C114_auto (H : HashFns) (is : InternalSigner) (tx tx' : Transaction) (hs : Sized tx) (lo hi : Nat) (hhi : hi ≤ 74) (hpub : is.pubKey.length = 33)
    (hsig : ∀ d, ∃ sig, is.sign d = .ok sig ∧ lo ≤ sig.length ∧ sig.length ≤ hi)
    (hin : ∀ i ∈ tx.Inputs, IsTxId i.PreviousTxID ∧ i.PreviousTxScript = some (p2pkh (H.ripemd160 (H.sha256 is.pubKey))) ∧ i.UnlockingScript.getD [] = [])
    (hout : ∀ o ∈ tx.Outputs, ∃ h : Bytes, h.length = 20 ∧ o.LockingScript = p2pkh h)
    (h : is.SignAuto H tx = .ok tx') :
    8 + compactLen tx.Inputs.length + compactLen tx.Outputs.length + tx.Inputs.length * (lo + 77) + tx.Outputs.length * 34 ≤ tx'.ToBytes.length ∧
    tx'.ToBytes.length ≤ 8 + compactLen tx.Inputs.length + compactLen tx.Outputs.length + tx.Inputs.length * (hi + 77) + tx.Outputs.length * 34 := by
  classical
  have hz : SignerSized is := ⟨by omega, fun d s hd => by
    obtain ⟨sig, h1, -, h2⟩ := hsig d
    rw [hd] at h1; injection h1 with h1; subst h1; omega⟩
  have hp : ∀ d, is.sign d ≠ .panic := fun d hd => by
    obtain ⟨sig, h1, -⟩ := hsig d
    rw [hd] at h1; cases h1
  have hsel : ∀ i ∈ tx.Inputs, Selected (H.ripemd160 (H.sha256 is.pubKey)) i := fun i hi => by
    obtain ⟨h1, h2, -⟩ := hin i hi
    refine selected_p2pkh _ (H.ripemd160_length _) i ?_ h2
    intro e; have := h1.1; rw [e] at this; simp at this
  have hr : ReadableScripts tx := fun i hi hpan => by
    obtain ⟨h1, h2, -⟩ := hin i hi
    rw [h2, p2pkh, C14_getPublicKeyHash _ (H.ripemd160_length _)] at hpan
    cases hpan
  unfold InternalSigner.SignAuto at h
  rw [signAutoLoop_eq, signInOrder_eq H is hz hp tx hs hr] at h
  injection h with h
  have hsame : SameButUnlocking tx tx' := by
    rw [← h, ← setAll_eq]; exact setAll_same _ _ _
  have ht' := txids_same hsame fun i hi => (hin i hi).1
  have hlen : tx'.Inputs.length = tx.Inputs.length := by rw [← h]; simp [signedAt]
  have hscript : ∀ i ∈ tx'.Inputs, lo + 77 ≤ inputSize i ∧ inputSize i ≤ hi + 77 := by
    intro i himem
    obtain ⟨k, hk⟩ := List.mem_iff_getElem?.mp himem
    rw [← h] at hk
    simp only [signedAt, List.getElem?_mapIdx] at hk
    obtain ⟨i0, h0, rfl⟩ := Option.map_eq_some_iff.mp hk
    have hlt : k < tx.Inputs.length := (List.getElem?_eq_some_iff.mp h0).1
    have hkk : (UInt32.ofNat k).toNat = k := by
      rw [UInt32.toNat_ofNat']; exact Nat.mod_eq_of_lt (by have := hs.1; omega)
    have hmem : k ∈ List.range' 0 tx.Inputs.length := by simp [List.mem_range'_1]; omega
    rw [if_pos hmem]
    have hm0 := List.mem_of_getElem? h0
    obtain ⟨h1, h2, -⟩ := hin i0 hm0
    have hne : i0.PreviousTxID ≠ [] := (hsel i0 hm0).1
    have hd := C43_digest H tx hs (UInt32.ofNat k) (flagOrDefault is.SigHashFlag) i0 _ (by rw [hkk]; exact h0) hne h2
    generalize (H.sha256 (H.sha256 (preimage (fun b => H.sha256 (H.sha256 b)) tx (UInt32.ofNat k).toNat i0 _ (flagOrDefault is.SigHashFlag)))).reverse = sh at hd
    obtain ⟨sig, g1, g2, g3⟩ := hsig sh.reverse
    have hnew : newScript H is tx k = some (unlocking sig (flagOrDefault is.SigHashFlag) is.pubKey) := by
      simp only [newScript, h0, if_pos (hsel i0 hm0), hd, g1]
    have hl := unlocking_length (flagOrDefault is.SigHashFlag) (show sig.length ≤ 74 by omega) (show is.pubKey.length ≤ 75 by omega)
    rw [hnew]
    simp only [putScript, inputSize, Option.getD_some, hl, compactLen, hpub]
    rw [if_pos (by omega)]
    omega
  rw [toBytes_size _ ht' ?_ ?_ (by have := hs.1; omega) (by rw [← hsame.2.2.1]; have := hs.2.1; omega)]
  rotate_left
  · intro i himem
    have := (hscript i himem).2
    simp only [inputSize] at this; omega
  · rw [← hsame.2.2.1]; exact hs.2.2.1
  have hs1 := sum_bounds tx'.Inputs inputSize _ _ hscript
  have hs2 : (tx'.Outputs.map fun o => 8 + compactLen o.LockingScript.length + o.LockingScript.length).sum = tx.Outputs.length * 34 := by
    have ho : tx'.Outputs = tx.Outputs := by rw [← h]; rfl
    rw [ho]
    have : ∀ l : List Output, (∀ o ∈ l, ∃ h : Bytes, h.length = 20 ∧ o.LockingScript = p2pkh h) → (l.map fun o => 8 + compactLen o.LockingScript.length + o.LockingScript.length).sum = l.length * 34 := by
      intro l hl
      induction l with
      | nil => simp
      | cons o l ih =>
        obtain ⟨hh, e1, e2⟩ := hl o (by simp)
        have e3 : o.LockingScript.length = 25 := by rw [e2]; simp [p2pkh, e1]
        rw [List.map_cons, List.sum_cons, List.length_cons, ih fun o ho => hl o (by simp [ho]), e3]
        simp only [compactLen]
        norm_num
        omega
    exact this _ hout
  have hol : tx'.Outputs.length = tx.Outputs.length := by rw [← h]; rfl
  have hfun : inputSize = fun i : Input => 40 + compactLen (i.UnlockingScript.getD []).length + (i.UnlockingScript.getD []).length := rfl
  rw [hfun, hlen] at hs1
  rw [hs2, hlen, hol]
  omega

/-- C114 (c), a payment from scratch: inputs added with `From` for P2PKH outputs of the key, outputs with `PayTo`, signed by `SignAuto`. Nothing fails, and with signatures of at most 72 bytes (the most
that strict DER with low S has) a fee for 149 bytes per input, 34 per output and 8 bytes and the counts is never for too few bytes; with signatures of 71 bytes that is 148 per input, exactly. -/
theorem C114_payment (H : HashFns) (is : InternalSigner) (lo hi : Nat) (hhi : hi ≤ 74) (hpub : is.pubKey.length = 33)
    (hsig : ∀ d, ∃ sig, is.sign d = .ok sig ∧ lo ≤ sig.length ∧ sig.length ≤ hi)
    (utxos : List (Bytes × UInt32 × UInt64)) (payees : List (Bytes × UInt64)) (hn : utxos.length < 2 ^ 31) (hm : payees.length < 2 ^ 32)
    (hu : ∀ u ∈ utxos, IsTxId u.1) (hp : ∀ p ∈ payees, IsAddressLike p.1) :
    ∃ tx tx', applyCalls Transaction.New (utxos.map (fun u => .fromUtxo u.1 u.2.1 (hexEncode (p2pkh (H.ripemd160 (H.sha256 is.pubKey)))) u.2.2) ++ payees.map fun p => .payTo p.1 p.2) =
        .ok (tx, List.replicate (utxos.length + payees.length) true) ∧ is.SignAuto H tx = .ok tx' ∧
      8 + compactLen utxos.length + compactLen payees.length + utxos.length * (lo + 77) + payees.length * 34 ≤ tx'.ToBytes.length ∧
      tx'.ToBytes.length ≤ 8 + compactLen utxos.length + compactLen payees.length + utxos.length * (hi + 77) + payees.length * 34 := by
  set pk := H.ripemd160 (H.sha256 is.pubKey) with hpk
  have hpl : pk.length = 20 := H.ripemd160_length _
  have hw : ∀ c ∈ utxos.map (fun u => Call.fromUtxo u.1 u.2.1 (hexEncode (p2pkh pk)) u.2.2) ++ payees.map fun p => Call.payTo p.1 p.2, c.wellFormed := by
    intro c hc
    rcases List.mem_append.mp hc with hc | hc
    · obtain ⟨u, -, rfl⟩ := List.mem_map.mp hc
      exact (isHexString_iff _).mpr (isHex_encode _)
    · obtain ⟨p, hpm, rfl⟩ := List.mem_map.mp hc
      exact hp p hpm
  have hf : (utxos.map (fun u => Call.fromUtxo u.1 u.2.1 (hexEncode (p2pkh pk)) u.2.2) ++ payees.map fun p => Call.payTo p.1 p.2).filter (decide ·.wellFormed) =
      utxos.map (fun u => Call.fromUtxo u.1 u.2.1 (hexEncode (p2pkh pk)) u.2.2) ++ payees.map fun p => Call.payTo p.1 p.2 := by
    rw [List.filter_eq_self]
    intro c hc; exact decide_eq_true (hw c hc)
  have hflags : (utxos.map (fun u => Call.fromUtxo u.1 u.2.1 (hexEncode (p2pkh pk)) u.2.2) ++ payees.map fun p => Call.payTo p.1 p.2).map (decide ·.wellFormed) =
      List.replicate (utxos.length + payees.length) true := by
    rw [List.eq_replicate_iff]
    refine ⟨by simp, fun b hb => ?_⟩
    obtain ⟨c, hc, rfl⟩ := List.mem_map.mp hb
    exact decide_eq_true (hw c hc)
  have hrun := C41_history_from Transaction.New (utxos.map (fun u => Call.fromUtxo u.1 u.2.1 (hexEncode (p2pkh pk)) u.2.2) ++ payees.map fun p => Call.payTo p.1 p.2)
  rw [hf, hflags] at hrun
  have hins : (utxos.map (fun u => Call.fromUtxo u.1 u.2.1 (hexEncode (p2pkh pk)) u.2.2) ++ payees.map fun p => Call.payTo p.1 p.2).flatMap Call.ins =
      utxos.map fun u => { PreviousTxID := u.1, PreviousTxOutIndex := u.2.1, PreviousTxSatoshis := u.2.2, PreviousTxScript := some (p2pkh pk), UnlockingScript := none, SequenceNumber := 0xffffffff } := by
    rw [List.flatMap_append, List.flatMap_map, List.flatMap_map]
    have e1 : payees.flatMap (fun p => Call.ins (Call.payTo p.1 p.2)) = [] := by simp [Call.ins]
    rw [e1, List.append_nil]
    simp only [Call.ins, hexDecodeIgnore_encode]
    rw [← List.map_eq_flatMap]
  have houts : (utxos.map (fun u => Call.fromUtxo u.1 u.2.1 (hexEncode (p2pkh pk)) u.2.2) ++ payees.map fun p => Call.payTo p.1 p.2).flatMap Call.outs =
      payees.map fun p => ⟨p.2, [0x76, 0xa9, 0x14] ++ ((base58Decode p.1).drop 1).take 20 ++ [0x88, 0xac]⟩ := by
    rw [List.flatMap_append, List.flatMap_map, List.flatMap_map]
    have e1 : utxos.flatMap (fun u => Call.outs (Call.fromUtxo u.1 u.2.1 (hexEncode (p2pkh pk)) u.2.2)) = [] := by simp [Call.outs]
    rw [e1, List.nil_append]
    simp only [Call.outs]
    rw [← List.map_eq_flatMap]
  rw [hins, houts] at hrun
  obtain ⟨tx, htx⟩ : ∃ tx : Transaction, tx = { Transaction.New with
      Inputs := Transaction.New.Inputs ++ utxos.map fun u => { PreviousTxID := u.1, PreviousTxOutIndex := u.2.1, PreviousTxSatoshis := u.2.2, PreviousTxScript := some (p2pkh pk), UnlockingScript := none, SequenceNumber := 0xffffffff },
      Outputs := Transaction.New.Outputs ++ payees.map fun p => ⟨p.2, [0x76, 0xa9, 0x14] ++ ((base58Decode p.1).drop 1).take 20 ++ [0x88, 0xac]⟩ } := ⟨_, rfl⟩
  rw [← htx] at hrun
  have hi1 : tx.Inputs = utxos.map fun u => { PreviousTxID := u.1, PreviousTxOutIndex := u.2.1, PreviousTxSatoshis := u.2.2, PreviousTxScript := some (p2pkh pk), UnlockingScript := none, SequenceNumber := 0xffffffff } := by
    rw [htx]; simp [Transaction.New]
  have ho1 : tx.Outputs = payees.map fun p => ⟨p.2, p2pkh (((base58Decode p.1).drop 1).take 20)⟩ := by
    rw [htx]; simp [Transaction.New, p2pkh]
  have hlin : tx.Inputs.length = utxos.length := by rw [hi1]; simp
  have hlout : tx.Outputs.length = payees.length := by rw [ho1]; simp
  have hin : ∀ i ∈ tx.Inputs, IsTxId i.PreviousTxID ∧ i.PreviousTxScript = some (p2pkh pk) ∧ i.UnlockingScript.getD [] = [] := by
    intro i himem
    rw [hi1] at himem
    obtain ⟨u, hum, rfl⟩ := List.mem_map.mp himem
    exact ⟨hu u hum, rfl, rfl⟩
  have hout : ∀ o ∈ tx.Outputs, ∃ h : Bytes, h.length = 20 ∧ o.LockingScript = p2pkh h := by
    intro o hom
    rw [ho1] at hom
    obtain ⟨p, hpm, rfl⟩ := List.mem_map.mp hom
    refine ⟨_, ?_, rfl⟩
    have := (hp p hpm).1
    simp [this]
  have hs : Sized tx := by
    refine ⟨by omega, by omega, ?_, ?_⟩
    · intro o hom
      obtain ⟨h, h1, h2⟩ := hout o hom
      rw [h2]; simp [p2pkh, h1]
    · intro i himem s hsome
      rw [(hin i himem).2.1] at hsome
      injection hsome with hsome
      rw [← hsome]; simp [p2pkh, hpl]
  have hr : ReadableScripts tx := fun i himem hpan => by
    rw [(hin i himem).2.1, p2pkh, C14_getPublicKeyHash _ hpl] at hpan
    cases hpan
  have hz : SignerSized is := ⟨by omega, fun d s hd => by
    obtain ⟨sig, h1, -, h2⟩ := hsig d
    rw [hd] at h1; injection h1 with h1; subst h1; omega⟩
  have hpan : ∀ d, is.sign d ≠ .panic := fun d hd => by
    obtain ⟨sig, h1, -⟩ := hsig d
    rw [hd] at h1; cases h1
  obtain ⟨tx', ht', -⟩ := C48_signAuto H is hz hpan tx hs hr
  refine ⟨tx, tx', hrun, ht', ?_⟩
  have := C114_auto H is tx tx' hs lo hi hhi hpub hsig hin hout ht'
  rw [hlin, hlout] at this
  exact this

/-- A signer with a compressed key and 71-byte signatures. -/
def toySigner33 : InternalSigner := { sign := fun d => .ok (List.replicate 39 7 ++ d), pubKey := 2 :: List.replicate 32 9, SigHashFlag := 0x41 }

/-- A payment of one input to one payee, signed. -/
def exPayment : Res Transaction := do
  let t ← Transaction.From Transaction.New (List.replicate 64 49) 1 (hexEncode (p2pkh (toyH.ripemd160 (toyH.sha256 toySigner33.pubKey)))) 9
  let t ← t.PayTo (Address.NewFromPublicKeyHash toyH (List.replicate 20 7) true).AddressString 5
  toySigner33.SignAuto toyH t

/-- non-vacuity: one input, one payee: 8 + 1 + 1 + 148 + 34 bytes -/
example : toySigner33.pubKey.length = 33 ∧ IsTxId (List.replicate 64 49) ∧ IsAddressLike (Address.NewFromPublicKeyHash toyH (List.replicate 20 7) true).AddressString ∧
    (exPayment.isOk = true ∧ ∀ t, exPayment = .ok t → t.ToBytes.length = 192) := by
  refine ⟨by decide +kernel, by unfold IsTxId; decide +kernel, by decide +kernel, by decide +kernel, fun t h => ?_⟩
  have : (match exPayment with | .ok t => t.ToBytes.length | _ => 0) = 192 := by decide +kernel
  rw [h] at this
  exact this

end Verif.Props
