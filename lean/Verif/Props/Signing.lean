import Verif.Spec.Signing
import Verif.Props.SigHash
/-!
# C47–C50: signing
-/
namespace Verif.Props
open Verif Spec Transaction

/-! ## Unlocking scripts -/

theorem push_eq (d : Bytes) : push d = (tokenFor d).bytes := by
  unfold push tokenFor
  by_cases h0 : d.length = 0
  · have : d = [] := List.length_eq_zero_iff.mp h0
    subst this; rfl
  · rw [if_neg h0]
    by_cases h1 : d.length ≤ 75
    · rw [if_pos h1, if_pos h1]; rfl
    · rw [if_neg h1, if_neg h1]
      by_cases h2 : d.length < 2 ^ 8
      · rw [if_pos h2, if_pos (show d.length ≤ 0xFF by omega)]; rfl
      · rw [if_neg h2, if_neg (show ¬ d.length ≤ 0xFF by omega)]
        by_cases h3 : d.length < 2 ^ 16
        · rw [if_pos h3, if_pos (show d.length ≤ 0xFFFF by omega)]; rfl
        · rw [if_neg h3, if_neg (show ¬ d.length ≤ 0xFFFF by omega)]; rfl

theorem newP2PKHUnlocking_eq {pub sig : Bytes} (flag : UInt8) (h1 : sig.length + 1 < 2 ^ 32) (h2 : pub.length < 2 ^ 32) :
    NewP2PKHUnlockingScript pub sig flag = (unlocking sig flag pub, none) := by
  have he : EncodeParts [sig ++ [flag], pub] = .ok (unlocking sig flag pub) := by
    refine (encodeParts_ok_iff _ _).mpr ⟨?_, ?_⟩
    · intro p hp
      simp only [List.mem_cons, List.not_mem_nil, or_false] at hp
      rcases hp with rfl | rfl
      · simp; omega
      · omega
    · simp [unlocking, push_eq, bytesOf]
  simp [NewP2PKHUnlockingScript, AppendPushDataArray, he]

/-- C50: the unlocking script is exactly the two pushes, and it decodes to exactly two parts, for signatures and keys up to 65531 bytes (DER signatures
have at most 72, keys 33 or 65). -/
theorem C50_unlocking (pub sig : Bytes) (flag : UInt8) (h1 : sig.length ≤ 65531) (h2 : pub.length ≤ 65532) (h3 : pub ≠ []) :
    ∃ s, NewP2PKHUnlockingScript pub sig flag = (s, none) ∧ s = push (sig ++ [flag]) ++ push pub ∧
      DecodeParts s = .ok [sig ++ [flag], pub] := by
  refine ⟨_, newP2PKHUnlocking_eq flag (by omega) (by omega), rfl, ?_⟩
  obtain ⟨b, hb, hd⟩ := C07_roundtrip_on_domain [sig ++ [flag], pub]
    (by intro p hp; simp only [List.mem_cons, List.not_mem_nil, or_false] at hp; rcases hp with rfl | rfl <;> simp [h3])
    (by intro p hp; simp only [List.mem_cons, List.not_mem_nil, or_false] at hp; rcases hp with rfl | rfl <;> simp <;> omega)
    (by intro p hp; simp only [List.mem_cons, List.not_mem_nil, or_false] at hp; rcases hp with rfl | rfl <;> simp [overflowLength] <;> omega)
  obtain ⟨-, hb⟩ := (encodeParts_ok_iff _ _).mp hb
  rw [← hd, hb]
  simp [unlocking, push_eq, bytesOf]

/-- C50, unlocking scripts are injective: equal scripts come from equal keys, signatures and flags. -/
theorem C50_injective (pub pub' sig sig' : Bytes) (flag flag' : UInt8) (h1 : sig.length ≤ 65531) (h2 : pub.length ≤ 65532) (h3 : pub ≠ [])
    (h1' : sig'.length ≤ 65531) (h2' : pub'.length ≤ 65532) (h3' : pub' ≠ [])
    (h : (NewP2PKHUnlockingScript pub sig flag).1 = (NewP2PKHUnlockingScript pub' sig' flag').1) : pub = pub' ∧ sig = sig' ∧ flag = flag' := by
  obtain ⟨s, e, -, d⟩ := C50_unlocking pub sig flag h1 h2 h3
  obtain ⟨s', e', -, d'⟩ := C50_unlocking pub' sig' flag' h1' h2' h3'
  rw [e, e'] at h
  simp only at h
  rw [h, d'] at d
  injection d with d
  simp only [List.cons.injEq, and_true] at d
  obtain ⟨d1, d2⟩ := List.append_inj' d.1 rfl
  simp only [List.cons.injEq, and_true] at d2
  exact ⟨d.2.symm, d1.symm, d2.symm⟩

example : DecodeParts (NewP2PKHUnlockingScript (List.replicate 33 2) (List.replicate 71 0x30) 0x41).1 =
    .ok [List.replicate 71 0x30 ++ [0x41], List.replicate 33 2] := by decide +kernel

/-! ## C47 -/

theorem _root_.Verif.Spec.SameButUnlocking.refl (tx : Transaction) : SameButUnlocking tx tx := ⟨rfl, rfl, rfl, rfl⟩

theorem _root_.Verif.Spec.SameButUnlocking.symm {a b : Transaction} (h : SameButUnlocking a b) : SameButUnlocking b a :=
  ⟨h.1.symm, h.2.1.symm, h.2.2.1.symm, h.2.2.2.symm⟩

theorem _root_.Verif.Spec.SameButUnlocking.trans {a b c : Transaction} (h : SameButUnlocking a b) (h' : SameButUnlocking b c) : SameButUnlocking a c :=
  ⟨h.1.trans h'.1, h.2.1.trans h'.2.1, h.2.2.1.trans h'.2.2.1, h.2.2.2.trans h'.2.2.2⟩

theorem withUnlocking_same (tx : Transaction) (k : Nat) (s : Bytes) : SameButUnlocking tx (withUnlocking tx k s) := by
  refine ⟨rfl, rfl, rfl, ?_⟩
  apply List.ext_getElem
  · simp [withUnlocking]
  · intro n h1 h2
    simp only [withUnlocking, List.getElem_map, List.getElem_mapIdx]
    split_ifs <;> rfl

theorem sighash_same (H : HashFns) {tx tx' : Transaction} (hs : Sized tx) (h : SameButUnlocking tx tx') (idx : UInt32) (flag : UInt8) :
    tx'.GetInputSignatureHash H idx flag = tx.GetInputSignatureHash H idx flag := by
  refine C44_unlocking H tx tx' hs idx flag ?_ h.2.2.2
  rcases tx with ⟨a, b, c, d⟩; rcases tx' with ⟨a', b', c', d'⟩
  obtain ⟨h1, h2, h3, -⟩ := h
  simp only at h1 h2 h3
  subst h1 h2 h3; rfl

theorem sized_same {tx tx' : Transaction} (hs : Sized tx) (h : SameButUnlocking tx tx') : Sized tx' := by
  obtain ⟨s1, s2, s3, s4⟩ := hs
  obtain ⟨-, -, ho, hi⟩ := h
  have hlen := congrArg List.length hi
  simp only [List.length_map] at hlen
  refine ⟨by omega, by rw [← ho]; exact s2, by rw [← ho]; exact s3, ?_⟩
  intro i him s hsome
  obtain ⟨k, hk⟩ := List.mem_iff_getElem?.mp him
  have := congrArg (·[k]?) hi
  simp only [List.getElem?_map, hk, Option.map_some] at this
  obtain ⟨j, hj, e⟩ := Option.map_eq_some_iff.mp this
  simp only [Input.mk.injEq] at e
  exact s4 j (List.mem_of_getElem? hj) s (by rw [e.2.2.2.1]; exact hsome)

theorem applyUnlocking_eq {tx : Transaction} {idx : UInt32} (s : Script) (h : idx.toNat < tx.Inputs.length) :
    tx.ApplyUnlockingScript idx s = .ok (withUnlocking tx idx.toNat s) := by
  simp only [ApplyUnlockingScript, index, List.getElem?_eq_getElem h, Res.ok_bind, Res.pure_eq, withUnlocking]
  congr 2
  apply List.ext_getElem
  · simp
  · intro n h1 h2
    rw [List.getElem_set, List.getElem_mapIdx]
    by_cases hn : idx.toNat = n
    · subst hn; simp
    · rw [if_neg hn, if_neg (fun e => hn e.symm)]

theorem effFlag_eq (is : InternalSigner) : is.effFlag = flagOrDefault is.SigHashFlag := rfl

/-- The three outcomes of the signature hash. -/
theorem sighash_cases (H : HashFns) (tx : Transaction) (hs : Sized tx) (idx : UInt32) (flag : UInt8) :
    (tx.Inputs.length ≤ idx.toNat ∧ tx.GetInputSignatureHash H idx flag = .panic) ∨
    (∃ i m, tx.Inputs[idx.toNat]? = some i ∧ (i.PreviousTxID = [] ∨ i.PreviousTxScript = none) ∧ tx.GetInputSignatureHash H idx flag = .err m) ∨
    (∃ i s, tx.Inputs[idx.toNat]? = some i ∧ i.PreviousTxID ≠ [] ∧ i.PreviousTxScript = some s ∧ tx.GetInputSignatureHash H idx flag =
      .ok (H.sha256 (H.sha256 (preimage (fun b => H.sha256 (H.sha256 b)) tx idx.toNat i s flag))).reverse) := by
  rcases hi : tx.Inputs[idx.toNat]? with _ | inp
  · exact Or.inl ⟨List.getElem?_eq_none_iff.mp hi, by simp [GetInputSignatureHash, index, hi]⟩
  · by_cases ht : inp.PreviousTxID = []
    · exact Or.inr (Or.inl ⟨inp, "'PreviousTxID' not supplied", rfl, Or.inl ht, by simp [GetInputSignatureHash, index, hi, ht]⟩)
    · rcases hc : inp.PreviousTxScript with _ | code
      · exact Or.inr (Or.inl ⟨inp, "'PreviousTxScript' not supplied", rfl, Or.inr hc, by simp [GetInputSignatureHash, index, hi, ht, hc]⟩)
      · exact Or.inr (Or.inr ⟨inp, code, rfl, ht, hc, C43_digest H tx hs idx flag inp code hi ht hc⟩)

theorem sign_eq (H : HashFns) (is : InternalSigner) (idx : UInt32) (tx : Transaction) :
    is.Sign H idx tx = tx.GetInputSignatureHash H idx (flagOrDefault is.SigHashFlag) >>= fun sh =>
      is.sign sh.reverse >>= fun sig => tx.ApplyUnlockingScript idx (NewP2PKHUnlockingScript is.pubKey sig (flagOrDefault is.SigHashFlag)).1 := by
  simp only [InternalSigner.Sign, effFlag_eq, ReverseBytes_eq]

/-- The signer's outputs have sizes for which a push exists (true of DER signatures and serialised keys). -/
def SignerSized (is : InternalSigner) : Prop := is.pubKey.length < 2 ^ 32 ∧ ∀ d s, is.sign d = .ok s → s.length + 1 < 2 ^ 32

/-- C47: a successful `Sign` replaces exactly input `idx`'s unlocking script, by the pushes of a signature over the double SHA256 of the input's preimage
(with the flag appended) and of the public key; flag 0 means ALL|FORKID. -/
theorem C47_sign_ok (H : HashFns) (is : InternalSigner) (hz : SignerSized is) (tx : Transaction) (hs : Sized tx) (idx : UInt32) (tx' : Transaction)
    (h : is.Sign H idx tx = .ok tx') :
    ∃ inp code sig, tx.Inputs[idx.toNat]? = some inp ∧ inp.PreviousTxID ≠ [] ∧ inp.PreviousTxScript = some code ∧
      is.sign (H.sha256 (H.sha256 (preimage (fun b => H.sha256 (H.sha256 b)) tx idx.toNat inp code (flagOrDefault is.SigHashFlag)))) = .ok sig ∧
      tx' = withUnlocking tx idx.toNat (push (sig ++ [flagOrDefault is.SigHashFlag]) ++ push is.pubKey) := by
  rw [sign_eq] at h
  obtain ⟨sh, hsh, h1⟩ := Res.bind_eq_ok.mp h
  obtain ⟨sig, hsig, h2⟩ := Res.bind_eq_ok.mp h1
  rcases sighash_cases H tx hs idx (flagOrDefault is.SigHashFlag) with ⟨-, e⟩ | ⟨_, _, -, -, e⟩ | ⟨inp, code, hi, ht, hc, e⟩ <;> rw [e] at hsh
  · cases hsh
  · cases hsh
  have hlt : idx.toNat < tx.Inputs.length := (List.getElem?_eq_some_iff.mp hi).1
  injection hsh with hsh
  subst hsh
  rw [List.reverse_reverse] at hsig
  rw [newP2PKHUnlocking_eq _ (hz.2 _ _ hsig) hz.1, applyUnlocking_eq _ hlt] at h2
  injection h2 with h2
  exact ⟨inp, code, sig, hi, ht, hc, hsig, h2.symm⟩

/-- C47, verification: whatever "verifies" means for the key (`verify digest signature`), if the signer only returns signatures that verify, then the signature
pushed by `Sign` verifies for the signature hash of the *resulting* transaction. -/
theorem C47_verifies (H : HashFns) (is : InternalSigner) (hz : SignerSized is) (verify : Bytes → Bytes → Prop)
    (hv : ∀ d s, is.sign d = .ok s → verify d s) (tx : Transaction) (hs : Sized tx) (idx : UInt32) (tx' : Transaction)
    (h : is.Sign H idx tx = .ok tx') :
    ∃ sig inp' hash, tx'.Inputs[idx.toNat]? = some inp' ∧
      inp'.UnlockingScript = some (push (sig ++ [flagOrDefault is.SigHashFlag]) ++ push is.pubKey) ∧
      tx'.GetInputSignatureHash H idx (flagOrDefault is.SigHashFlag) = .ok hash ∧ verify hash.reverse sig := by
  obtain ⟨inp, code, sig, hi, ht, hc, hsig, rfl⟩ := C47_sign_ok H is hz tx hs idx tx' h
  refine ⟨sig, { inp with UnlockingScript := some (push (sig ++ [flagOrDefault is.SigHashFlag]) ++ push is.pubKey) }, _, ?_, rfl,
    (sighash_same H hs (withUnlocking_same tx _ _) idx _).trans (C43_digest H tx hs idx _ inp code hi ht hc), ?_⟩
  · simp [withUnlocking, List.getElem?_mapIdx, hi]
  · rw [List.reverse_reverse]; exact hv _ _ hsig

/-- C47, success domain: with a key that signs, `Sign` succeeds exactly when the input exists and has a previous txid and script. -/
theorem C47_domain (H : HashFns) (is : InternalSigner) (hsign : ∀ d, (is.sign d).isOk) (tx : Transaction) (hs : Sized tx) (idx : UInt32) :
    (is.Sign H idx tx).isOk ↔ ∃ i s, tx.Inputs[idx.toNat]? = some i ∧ i.PreviousTxID ≠ [] ∧ i.PreviousTxScript = some s := by
  rw [sign_eq]
  rcases sighash_cases H tx hs idx (flagOrDefault is.SigHashFlag) with ⟨hl, e⟩ | ⟨i, _, hi, hne, e⟩ | ⟨inp, code, hi, ht, hc, e⟩ <;> rw [e]
  · simp [List.getElem?_eq_none hl]
  · rcases hne with hne | hne <;> simp [hi, hne]
  · have hlt : idx.toNat < tx.Inputs.length := (List.getElem?_eq_some_iff.mp hi).1
    refine iff_of_true ?_ ⟨inp, code, hi, ht, hc⟩
    rw [Res.ok_bind, List.reverse_reverse]
    have := hsign (H.sha256 (H.sha256 (preimage (fun b => H.sha256 (H.sha256 b)) tx idx.toNat inp code (flagOrDefault is.SigHashFlag))))
    generalize is.sign (H.sha256 (H.sha256 (preimage (fun b => H.sha256 (H.sha256 b)) tx idx.toNat inp code (flagOrDefault is.SigHashFlag)))) = r at this
    rcases r with s | e | _
    · rw [Res.ok_bind, applyUnlocking_eq _ hlt]; rfl
    · cases this
    · cases this

/-- C47, the method on the transaction: on an error the transaction is unchanged and the error is the signer's; otherwise it is the signed transaction. -/
theorem C47_method (H : HashFns) (is : InternalSigner) (tx : Transaction) (idx : UInt32) (r : Transaction × Option String)
    (h : tx.Sign H idx is = .ok r) : (∃ e, is.Sign H idx tx = .err e ∧ r = (tx, some e)) ∨ (∃ t, is.Sign H idx tx = .ok t ∧ r = (t, none)) := by
  unfold Transaction.Sign at h
  rcases hs : is.Sign H idx tx with t | e | _ <;> rw [hs] at h
  · injection h with h; exact Or.inr ⟨t, rfl, h.symm⟩
  · injection h with h; exact Or.inl ⟨e, rfl, h.symm⟩
  · cases h

/-- A toy signer for the examples: the "signature" of a digest is its first nine bytes. -/
def toySigner : InternalSigner := { sign := fun d => .ok (d.take 9), pubKey := [2, 3, 4], SigHashFlag := 0 }

theorem toySigner_sized : SignerSized toySigner := by
  refine ⟨by decide, ?_⟩
  intro d s h
  simp only [toySigner, Res.ok.injEq] at h
  subst h
  simp; omega

example : ∃ tx', toySigner.Sign toyH 1 exSpend = .ok tx' ∧ tx' ≠ exSpend := by
  have h := (C47_domain toyH toySigner (fun _ => rfl) exSpend exSpend_sized 1).mpr ⟨_, [0x76, 0xa9], rfl, by decide +kernel, by decide +kernel⟩
  rcases hs : toySigner.Sign toyH 1 exSpend with t | e | _ <;> rw [hs] at h
  · refine ⟨t, rfl, ?_⟩
    obtain ⟨_, _, sig, _, _, _, _, rfl⟩ := C47_sign_ok toyH toySigner toySigner_sized exSpend exSpend_sized 1 t hs
    intro he
    have := congrArg (fun t => (t.Inputs[1]?).map (·.UnlockingScript)) he
    simp [withUnlocking, exSpend, exTx, push, toySigner] at this
    have := congrArg List.length this
    rw [List.length_append] at this
    simp at this
  · cases h
  · cases h

end Verif.Props
