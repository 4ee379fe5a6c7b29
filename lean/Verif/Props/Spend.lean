import Verif.Props.SignAuto
import Verif.Props.Tx
import Verif.Props.TxBuild
import Verif.Props.Address
import Verif.Spec.Interp
/-!
# C70, C71: signed inputs are accepted by script evaluation; pay, then spend
-/
namespace Verif.Props
open Verif Spec Transaction

/-- A key pair as the signer uses it: signing never fails, its signatures verify for its public key, keys and signatures have pushable sizes, and the flag is
one that nodes accept (the default is). -/
def GoodSigner (verify : Bytes → Bytes → Bytes → Bool) (is : InternalSigner) : Prop :=
  SignerSized is ∧ (is.pubKey ≠ [] ∧ DefinedFlag (flagOrDefault is.SigHashFlag) = true) ∧ ∀ d, ∃ s, is.sign d = .ok s ∧ verify is.pubKey d s = true

theorem tokenFor_isPush (d : Bytes) (h : d ≠ []) : (tokenFor d).IsPush := by
  unfold tokenFor
  have : d.length ≠ 0 := fun e => h (List.length_eq_zero_iff.mp e)
  split
  · omega
  · repeat' split
    all_goals trivial

theorem pushOnly_of {t : Token} (h : t.IsPush) : PushOnly t := by
  cases t with
  | op o => exact h.elim
  | direct d | pd1 d | pd2 d | pd4 d => trivial

theorem tokenFor_ne_return (d : Bytes) (h : d ≠ []) : tokenFor d ≠ .op 0x6a := by
  intro e
  have := tokenFor_isPush d h
  rw [e] at this
  exact this

theorem evalToken_push (H : HashFns) (c : Bytes → Bytes → Bool) (d : Bytes) (h : d ≠ []) (st : List Bytes) : evalToken H c (tokenFor d) st = some (d :: st) := by
  have h1 := tokenFor_payload d h
  have h2 := tokenFor_isPush d h
  revert h1 h2
  cases tokenFor d <;> intro h1 h2
  · cases h2
  all_goals (simp only [Token.payload] at h1; subst h1; rfl)

/-- An unlocking script made of a verifying signature and the key whose hash the locking script names is accepted. -/
theorem accepted_of_unlocking (H : HashFns) (verify : Bytes → Bytes → Bytes → Bool) (tx : Transaction) (k : Nat) (inp : Input) (sig pub : Bytes) (flag : UInt8) (sats : UInt64)
    (hi : tx.Inputs[k]? = some inp) (hu : inp.UnlockingScript = some (unlocking sig flag pub)) (hl : sig.length + 1 < 2 ^ 32) (hpl : pub.length < 2 ^ 32) (hp : pub ≠ []) (hf : DefinedFlag flag = true)
    (hv : verify pub (H.sha256 (H.sha256 (preimage (fun b => H.sha256 (H.sha256 b)) tx k { inp with PreviousTxSatoshis := sats }
      (p2pkh (H.ripemd160 (H.sha256 pub))) flag))) sig = true) :
    Accepted H verify tx k (p2pkh (H.ripemd160 (H.sha256 pub))) sats := by
  have hne : sig ++ [flag] ≠ [] := by simp
  have h20 := H.ripemd160_length (H.sha256 pub)
  refine ⟨inp, _, [tokenFor (sig ++ [flag]), tokenFor pub], [.op 0x76, .op 0xa9, .direct (H.ripemd160 (H.sha256 pub)), .op 0x88, .op 0xac],
    [pub, sig ++ [flag]], [[1]], hi, hu, ?_, ?_, ?_, ?_, ?_, ?_, ⟨0, 1, rfl, by decide, by decide⟩⟩
  · simp [unlocking, push_eq, bytesOf]
  · intro u h
    rcases List.mem_cons.mp h with rfl | h
    · exact ⟨tokenFor_valid _ (by rw [List.length_append, List.length_singleton]; omega), pushOnly_of (tokenFor_isPush _ hne)⟩
    · rw [List.mem_singleton.mp h]; exact ⟨tokenFor_valid _ (by omega), pushOnly_of (tokenFor_isPush _ hp)⟩
  · simp [p2pkh, bytesOf, Token.bytes, Token.header, Token.data, h20]
  · intro t ht
    simp only [List.mem_cons, List.not_mem_nil, or_false] at ht
    rcases ht with rfl | rfl | rfl | rfl | rfl
    · exact Or.inr (by decide)
    · exact Or.inr (by decide)
    · exact ⟨by omega, by omega⟩
    · exact Or.inr (by decide)
    · exact Or.inr (by decide)
  · simp [evalTokens, tokenFor_ne_return, hne, hp, evalToken_push _ _ _ hne, evalToken_push _ _ _ hp]
  · have hc : checkSigOf H verify tx k inp (p2pkh (H.ripemd160 (H.sha256 pub))) sats pub (sig ++ [flag]) = true := by
      simp only [checkSigOf, List.getLast?_append, List.getLast?_singleton, Option.some_or, List.dropLast_concat, hf, Bool.true_and]
      exact hv
    simp [evalTokens, evalToken, hc]

/-- The preimage is blind to unlocking scripts. -/
theorem preimage_same {tx tx' : Transaction} (h : SameButUnlocking tx tx') (d : Bytes → Bytes) (k : Nat) (inp : Input) (lock : Bytes) (flag : UInt8) :
    preimage d tx k inp lock flag = preimage d tx' k inp lock flag := by
  obtain ⟨h1, h2, h3, h4⟩ := h
  have e1 : prevoutsString tx = prevoutsString tx' := by
    have := congrArg (List.flatMap outpoint) h4
    simp only [List.flatMap_map] at this
    exact this
  have e2 : sequenceString tx = sequenceString tx' := by
    have := congrArg (List.flatMap fun i : Input => leBytes 4 i.SequenceNumber.toNat) h4
    simp only [List.flatMap_map] at this
    exact this
  simp only [preimage, h1, h2, e1, e2, outputsString, h3]

/-- The preimage does not look at the input's own unlocking script. -/
theorem preimage_inp (d : Bytes → Bytes) (tx : Transaction) (k : Nat) (inp inp' : Input) (lock : Bytes) (flag : UInt8) (h1 : inp.PreviousTxID = inp'.PreviousTxID)
    (h2 : inp.PreviousTxOutIndex = inp'.PreviousTxOutIndex) (h3 : inp.PreviousTxSatoshis = inp'.PreviousTxSatoshis) (h4 : inp.SequenceNumber = inp'.SequenceNumber) :
    preimage d tx k inp lock flag = preimage d tx k inp' lock flag := by
  simp only [preimage, outpoint, h1, h2, h3, h4]

theorem input_same_full {tx tx' : Transaction} (h : SameButUnlocking tx tx') (k : Nat) (i : Input) (hi : tx.Inputs[k]? = some i) :
    ∃ i', tx'.Inputs[k]? = some i' ∧ i.PreviousTxID = i'.PreviousTxID ∧ i.PreviousTxOutIndex = i'.PreviousTxOutIndex ∧ i.PreviousTxSatoshis = i'.PreviousTxSatoshis ∧
      i.PreviousTxScript = i'.PreviousTxScript ∧ i.SequenceNumber = i'.SequenceNumber := by
  have := congrArg (·[k]?) h.2.2.2
  simp only [List.getElem?_map, hi, Option.map_some] at this
  rcases h2 : tx'.Inputs[k]? with _ | i' <;> rw [h2] at this
  · cases this
  · simp only [Option.map_some, Option.some.injEq, Input.mk.injEq] at this
    exact ⟨i', rfl, this.1, this.2.1, this.2.2.1, this.2.2.2.1, this.2.2.2.2.2⟩

/-- One `SignAuto` with a good signer: succeeds, changes only unlocking scripts, leaves unselected inputs, and gives each selected input an unlocking script with a
signature that verifies for the digest of the original transaction. -/
theorem signAuto_good (H : HashFns) (verify : Bytes → Bytes → Bytes → Bool) (is : InternalSigner) (hg : GoodSigner verify is) (tx : Transaction) (hs : Sized tx)
    (hr : ReadableScripts tx) :
    ∃ tx', is.SignAuto H tx = .ok tx' ∧ SameButUnlocking tx tx' ∧
      ∀ k inp, tx.Inputs[k]? = some inp →
        (¬ Selected (H.ripemd160 (H.sha256 is.pubKey)) inp → tx'.Inputs[k]? = some inp) ∧
        (∀ code, inp.PreviousTxID ≠ [] → inp.PreviousTxScript = some code → BeginsPayTo (H.ripemd160 (H.sha256 is.pubKey)) code →
          ∃ sig, tx'.Inputs[k]? = some { inp with UnlockingScript := some (unlocking sig (flagOrDefault is.SigHashFlag) is.pubKey) } ∧ sig.length + 1 < 2 ^ 32 ∧
            verify is.pubKey (H.sha256 (H.sha256 (preimage (fun b => H.sha256 (H.sha256 b)) tx k inp code (flagOrDefault is.SigHashFlag)))) sig = true) := by
  obtain ⟨hz, _, hsig⟩ := hg
  have hp : ∀ d, is.sign d ≠ .panic := fun d => by obtain ⟨s, h, _⟩ := hsig d; rw [h]; simp
  obtain ⟨tx', h1, h2, h3, h4, h5, h6⟩ := C48_signAuto H is hz hp tx hs hr
  have hat : ∀ k inp, tx.Inputs[k]? = some inp →
        (¬ Selected (H.ripemd160 (H.sha256 is.pubKey)) inp → tx'.Inputs[k]? = some inp) ∧
        (∀ code, inp.PreviousTxID ≠ [] → inp.PreviousTxScript = some code → BeginsPayTo (H.ripemd160 (H.sha256 is.pubKey)) code →
          ∃ sig, tx'.Inputs[k]? = some { inp with UnlockingScript := some (unlocking sig (flagOrDefault is.SigHashFlag) is.pubKey) } ∧ sig.length + 1 < 2 ^ 32 ∧
            verify is.pubKey (H.sha256 (H.sha256 (preimage (fun b => H.sha256 (H.sha256 b)) tx k inp code (flagOrDefault is.SigHashFlag)))) sig = true) := by
    intro k inp hi
    obtain ⟨a, b⟩ := h6 k inp hi
    refine ⟨a, ?_⟩
    intro code ht hc hb
    obtain ⟨b1, -, -⟩ := b ⟨ht, code, hc, hb⟩
    have hlt : k < tx.Inputs.length := (List.getElem?_eq_some_iff.mp hi).1
    have hk : (UInt32.ofNat k).toNat = k := by
      rw [UInt32.toNat_ofNat']; exact Nat.mod_eq_of_lt (by have := hs.1; omega)
    have hok : (is.Sign H (UInt32.ofNat k) tx).isOk :=
      (C47_domain H is (fun d => by obtain ⟨s, h, _⟩ := hsig d; rw [h]; rfl) tx hs _).mpr ⟨inp, code, by rw [hk]; exact hi, ht, hc⟩
    rcases ht' : is.Sign H (UInt32.ofNat k) tx with t | e | _ <;> rw [ht'] at hok
    · obtain ⟨inp', code', sig, g1, g2, g3, g4, g5⟩ := C47_sign_ok H is hz tx hs _ t ht'
      rw [hk, hi] at g1; injection g1 with g1; subst g1
      rw [hc] at g3; injection g3 with g3; subst g3
      rw [hk] at g4 g5
      refine ⟨sig, ?_, hz.2 _ _ g4, ?_⟩
      · rw [b1 t ht', g5]
        simp [withUnlocking, List.getElem?_mapIdx, hi, unlocking]
      · obtain ⟨s, hs1, hs2⟩ := hsig (H.sha256 (H.sha256 (preimage (fun b => H.sha256 (H.sha256 b)) tx k inp code (flagOrDefault is.SigHashFlag))))
        rw [g4] at hs1; injection hs1 with hs1; subst hs1
        exact hs2
    · cases hok
    · cases hok
  refine ⟨tx', h1, ⟨h2.symm, h3.symm, h4.symm, ?_⟩, hat⟩
  apply List.ext_getElem?
  intro k
  simp only [List.getElem?_map]
  rcases hi : tx.Inputs[k]? with _ | inp
  · have : tx'.Inputs[k]? = none := by
      rw [List.getElem?_eq_none_iff] at hi ⊢; omega
    rw [this]
  · obtain ⟨a, b⟩ := hat k inp hi
    by_cases hsel : Selected (H.ripemd160 (H.sha256 is.pubKey)) inp
    · obtain ⟨ht, code, hc, hb⟩ := hsel
      obtain ⟨sig, e, _⟩ := b code ht hc hb
      rw [e]; rfl
    · rw [a hsel]

/-- Signing with one key after the other. -/
def signWithAll (H : HashFns) (signers : List InternalSigner) (tx : Transaction) : Res Transaction := signers.foldlM (fun t is => is.SignAuto H t) tx

theorem beginsPayTo_p2pkh {h g : Bytes} (hl : h.length = 20) (hb : BeginsPayTo g (p2pkh h)) : g = h := by
  have h1 := C14_getPublicKeyHash h hl
  have h2 := (getPublicKeyHash_ok_iff (some (p2pkh h)) g).mpr ⟨_, rfl, hb⟩
  have : p2pkh h = [0x76, 0xa9, 0x14] ++ h ++ [0x88, 0xac] := rfl
  rw [this, h1] at h2
  injection h2 with h2; exact h2.symm

/-- C70: signing with any number of keys, in any order, makes every input that spends a P2PKH output of one of the keys acceptable to script evaluation, for the spent
output's script and amount, and changes nothing but unlocking scripts. -/
theorem C70_signed_accepted (H : HashFns) (verify : Bytes → Bytes → Bytes → Bool) (signers : List InternalSigner) (hg : ∀ is ∈ signers, GoodSigner verify is)
    (tx : Transaction) (hs : Sized tx) (hr : ReadableScripts tx) :
    ∃ tx', signWithAll H signers tx = .ok tx' ∧ SameButUnlocking tx tx' ∧
      ∀ is ∈ signers, ∀ k inp, tx.Inputs[k]? = some inp → inp.PreviousTxID ≠ [] →
        inp.PreviousTxScript = some (p2pkh (H.ripemd160 (H.sha256 is.pubKey))) →
        Accepted H verify tx' k (p2pkh (H.ripemd160 (H.sha256 is.pubKey))) inp.PreviousTxSatoshis := by
  -- invariant: input `k` carries a verifying signature of a key with hash `h`
  let Done (t : Transaction) (k : Nat) (h : Bytes) : Prop := ∃ pub sig flag i, t.Inputs[k]? = some i ∧ i.UnlockingScript = some (unlocking sig flag pub) ∧
    sig.length + 1 < 2 ^ 32 ∧ pub.length < 2 ^ 32 ∧ (pub ≠ [] ∧ DefinedFlag flag = true) ∧ H.ripemd160 (H.sha256 pub) = h ∧
    verify pub (H.sha256 (H.sha256 (preimage (fun b => H.sha256 (H.sha256 b)) t k i (p2pkh h) flag))) sig = true
  suffices hmain : ∀ (signers : List InternalSigner), (∀ is ∈ signers, GoodSigner verify is) → ∀ t, SameButUnlocking tx t →
      ∃ tx', signWithAll H signers t = .ok tx' ∧ SameButUnlocking tx tx' ∧
        ∀ k inp h, tx.Inputs[k]? = some inp → inp.PreviousTxID ≠ [] → h.length = 20 → inp.PreviousTxScript = some (p2pkh h) →
          ((∃ is ∈ signers, H.ripemd160 (H.sha256 is.pubKey) = h) ∨ Done t k h) → Done tx' k h by
    obtain ⟨tx', h1, h2, h3⟩ := hmain signers hg tx (SameButUnlocking.refl tx)
    refine ⟨tx', h1, h2, ?_⟩
    intro is his k inp hi ht hc
    obtain ⟨pub, sig, flag, i, d1, d2, d3, d4, d5, d6, d7⟩ := h3 k inp _ hi ht (H.ripemd160_length _) hc (Or.inl ⟨is, his, rfl⟩)
    rw [← d6] at d7 ⊢
    obtain ⟨i', e1, -, -, e4, -, -⟩ := input_same_full h2 k inp hi
    rw [d1] at e1; injection e1 with e1; subst e1
    apply accepted_of_unlocking H verify tx' k i sig pub flag _ d1 d2 d3 d4 d5.1 d5.2
    rw [e4]; exact d7
  intro signers
  induction signers with
  | nil =>
    intro _ t ht
    refine ⟨t, rfl, ht, ?_⟩
    intro k inp h _ _ _ _ hd
    rcases hd with ⟨is, his, _⟩ | hd
    · cases his
    · exact hd
  | cons is signers ih =>
    intro hg t ht
    have hgis := hg is (by simp)
    obtain ⟨t1, s1, s2, s3⟩ := signAuto_good H verify is hgis t (sized_same hs ht) (readable_same ht hr)
    obtain ⟨tx', r1, r2, r3⟩ := ih (fun x hx => hg x (by simp [hx])) t1 (ht.trans s2)
    refine ⟨tx', ?_, r2, ?_⟩
    · unfold signWithAll at r1 ⊢
      rw [List.foldlM_cons, s1]
      exact r1
    · intro k inp h hi hid hl hc hd
      apply r3 k inp h hi hid hl hc
      obtain ⟨i, e1, e2, e3, e4, e5, e6⟩ := input_same_full ht k inp hi
      obtain ⟨b1, b2⟩ := s3 k i e1
      have hcode : i.PreviousTxScript = some (p2pkh h) := by rw [← e5]; exact hc
      have hid' : i.PreviousTxID ≠ [] := by rw [← e2]; exact hid
      by_cases hh : H.ripemd160 (H.sha256 is.pubKey) = h
      · -- this key signs the input
        right
        have hb : BeginsPayTo (H.ripemd160 (H.sha256 is.pubKey)) (p2pkh h) := by
          rw [← hh]
          obtain ⟨_, s, q1, q2⟩ := selected_p2pkh (H.ripemd160 (H.sha256 is.pubKey)) (H.ripemd160_length _) { i with PreviousTxScript := some (p2pkh (H.ripemd160 (H.sha256 is.pubKey))) } hid' rfl
          injection q1 with q1; subst q1; exact q2
        obtain ⟨sig, g1, g2, g3⟩ := b2 _ hid' hcode hb
        refine ⟨is.pubKey, sig, _, _, g1, rfl, g2, hgis.1.1, hgis.2.1, hh, ?_⟩
        rw [← preimage_same s2]
        exact g3
      · rcases hd with ⟨x, hx, e⟩ | hd
        · left
          rcases List.mem_cons.mp hx with rfl | hx
          · exact absurd e hh
          · exact ⟨x, hx, e⟩
        · -- not selected: the signature of an earlier key stays
          right
          have hns : ¬ Selected (H.ripemd160 (H.sha256 is.pubKey)) i := by
            rintro ⟨_, s, q1, q2⟩
            rw [hcode] at q1; injection q1 with q1; subst q1
            exact hh (beginsPayTo_p2pkh hl q2)
          obtain ⟨pub, sig, flag, j, d1, d2, d3, d4, d5, d6, d7⟩ := hd
          rw [e1] at d1; injection d1 with d1; subst d1
          refine ⟨pub, sig, flag, i, b1 hns, d2, d3, d4, d5, d6, ?_⟩
          rw [← preimage_same s2]; exact d7

/-! ## Acceptance after serialisation -/

theorem hexDecodeIgnore_lower {s : Bytes} (h : IsHex s) : hexDecodeIgnore (s.map lowerChar) = hexDecodeIgnore s := by
  rw [← hexEncode_decode h, hexDecodeIgnore_encode]

theorem wireInput_outpoint (i : Input) (h : IsTxId i.PreviousTxID) : outpoint (wireInput i) = outpoint i := by
  simp only [outpoint, wireInput, hexDecodeIgnore_lower (isTxId_iff.mp h).1]

/-- The preimage of an input of the wire view is that of the input itself (the amount is given separately). -/
theorem preimage_wire (d : Bytes → Bytes) (tx : Transaction) (ht : ∀ i ∈ tx.Inputs, IsTxId i.PreviousTxID) (k : Nat) (inp : Input) (hi : IsTxId inp.PreviousTxID)
    (sats : UInt64) (lock : Bytes) (flag : UInt8) :
    preimage d (wireTx tx) k { wireInput inp with PreviousTxSatoshis := sats } lock flag = preimage d tx k { inp with PreviousTxSatoshis := sats } lock flag := by
  have e1 : prevoutsString (wireTx tx) = prevoutsString tx := by
    simp only [prevoutsString, wireTx, List.flatMap_map]
    revert ht
    generalize tx.Inputs = l
    intro ht
    induction l with
    | nil => rfl
    | cons a l ih =>
      simp only [List.flatMap_cons]
      rw [wireInput_outpoint a (ht a (by simp)), ih (fun x hx => ht x (by simp [hx]))]
  have e2 : sequenceString (wireTx tx) = sequenceString tx := by
    simp only [sequenceString, wireTx, List.flatMap_map]
    rfl
  have e3 : outpoint { wireInput inp with PreviousTxSatoshis := sats } = outpoint { inp with PreviousTxSatoshis := sats } := wireInput_outpoint inp hi
  unfold preimage
  rw [e1, e2, e3]
  rfl

/-- C70, on the wire: an accepted input is still accepted after the transaction has been serialised and parsed again, by anybody, with any memory behind the bytes. -/
theorem C70_accepted_after_parse (H : HashFns) (verify : Bytes → Bytes → Bytes → Bool) (tx : Transaction) (ht : ∀ i ∈ tx.Inputs, IsTxId i.PreviousTxID) (k : Nat)
    (lock : Bytes) (sats : UInt64) (ha : Accepted H verify tx k lock sats) (sp : Bytes) (hcap : tx.ToBytes.length + sp.length < 2 ^ 62) :
    ∃ tx', Transaction.NewFromBytes ⟨tx.ToBytes, sp⟩ = .ok tx' ∧ Accepted H verify tx' k lock sats ∧ tx'.GetTxID H = tx.GetTxID H := by
  refine ⟨wireTx tx, C33_parse_serialise tx ht sp hcap, ?_, ?_⟩
  · obtain ⟨inp, unl, us, ts, st, rest, h1, h2, h3, h4, h5, h6, h7, h8⟩ := ha
    have hid := ht inp (List.mem_of_getElem? h1)
    have hc : checkSigOf H verify (wireTx tx) k (wireInput inp) lock sats = checkSigOf H verify tx k inp lock sats := by
      funext pub sf
      unfold checkSigOf
      cases sf.getLast? with
      | none => rfl
      | some flag => simp only [preimage_wire _ tx ht k inp hid sats lock flag]
    refine ⟨wireInput inp, unl, us, ts, st, rest, ?_, ?_, h3, h4, h5, h6, ?_, ?_⟩
    · simp [wireTx, h1]
    · simp [wireInput, h2]
    · rw [hc]; exact h7
    · rw [hc]; exact h8
  · have hw : wireTx (wireTx tx) = wireTx tx := (isTx_wire ((C35_accepts_iff _ _ hcap _).mp (C33_parse_serialise tx ht sp hcap))).1
    have ht' : ∀ i ∈ (wireTx tx).Inputs, IsTxId i.PreviousTxID := (isTx_wire ((C35_accepts_iff _ _ hcap _).mp (C33_parse_serialise tx ht sp hcap))).2
    have := (C38_serialise_injective tx (wireTx tx) ht ht' (by omega)).mpr hw.symm
    rw [(C38_txid_form H _).1, (C38_txid_form H _).1, ← this]

/-! ## C71: pay, then spend -/

/-- C71: pay any amount to the address of a key (either network) in any transaction; add the new output to any other transaction with `From`, giving the id of the paying
transaction, the output's position, its locking script in hex and its amount; sign with the key. Every step succeeds, the new input points at that output of that
transaction, and script evaluation accepts it for that output. -/
theorem C71_pay_then_spend (H : HashFns) (verify : Bytes → Bytes → Bytes → Bool) (is : InternalSigner) (hg : GoodSigner verify is) (mainnet : Bool)
    (tx0 tx2 : Transaction) (sats : UInt64) (hv : tx0.Outputs.length < 2 ^ 32) (hs : Sized tx2) (hn : tx2.Inputs.length + 1 < 2 ^ 31) (hr : ReadableScripts tx2) :
    ∃ tx1 o tx3 tx4 inp,
      tx0.PayTo (Address.NewFromPublicKey H is.pubKey mainnet).AddressString sats = .ok tx1 ∧
      tx1.Outputs = tx0.Outputs ++ [o] ∧ o.Satoshis = sats ∧
      tx2.From (tx1.GetTxID H) (UInt32.ofNat tx0.Outputs.length) o.GetLockingScriptHexString sats = .ok tx3 ∧
      is.SignAuto H tx3 = .ok tx4 ∧ tx4.Outputs = tx2.Outputs ∧
      tx4.Inputs.length = tx2.Inputs.length + 1 ∧ tx4.Inputs[tx2.Inputs.length]? = some inp ∧
      outpoint inp = H.sha256 (H.sha256 tx1.ToBytes) ++ leBytes 4 tx0.Outputs.length ∧
      Accepted H verify tx4 tx2.Inputs.length o.LockingScript o.Satoshis := by
  obtain ⟨ha, -⟩ := C27_constructors_agree H is.pubKey mainnet
  rw [(C14_p2pkh_form H is.pubKey).1] at ha
  let o : Output := ⟨sats, p2pkh (H.ripemd160 (H.sha256 is.pubKey))⟩
  let tx1 : Transaction := { tx0 with Outputs := tx0.Outputs ++ [o] }
  let i0 : Input := ⟨tx1.GetTxID H, UInt32.ofNat tx0.Outputs.length, sats, some o.LockingScript, none, 0xffffffff⟩
  let tx3 : Transaction := { tx2 with Inputs := tx2.Inputs ++ [i0] }
  have hpay : tx0.PayTo (Address.NewFromPublicKey H is.pubKey mainnet).AddressString sats = .ok tx1 := by
    simp only [Transaction.PayTo, Output.NewP2PKHFromAddress, ha]; rfl
  have hfrom : tx2.From (tx1.GetTxID H) (UInt32.ofNat tx0.Outputs.length) o.GetLockingScriptHexString sats = .ok tx3 := by
    simp only [Transaction.From, Output.GetLockingScriptHexString, Script.NewFromHexString, hexDecodeRes_encode]; rfl
  have hs3 : Sized tx3 := by
    obtain ⟨a, b, c, d⟩ := hs
    refine ⟨by simpa [tx3] using hn, b, c, ?_⟩
    intro i hi s hsc
    rcases List.mem_append.mp hi with hi | hi
    · exact d i hi s hsc
    · rw [List.mem_singleton.mp hi] at hsc
      simp only [i0, Option.some.injEq] at hsc
      subst hsc
      simp [o, p2pkh, H.ripemd160_length]
  have hr3 : ReadableScripts tx3 := by
    intro i hi
    rcases List.mem_append.mp hi with hi | hi
    · exact hr i hi
    · rw [List.mem_singleton.mp hi]
      have := C14_getPublicKeyHash (H.ripemd160 (H.sha256 is.pubKey)) (H.ripemd160_length _)
      simp only [i0, o, p2pkh]
      rw [this]; simp
  have hi3 : tx3.Inputs[tx2.Inputs.length]? = some i0 := by simp [tx3]
  have hid : i0.PreviousTxID ≠ [] := by
    intro e
    have := (C38_txid_form H tx1).2.1
    simp only [i0] at e
    rw [e] at this; simp at this
  obtain ⟨tx4, s1, s2, s3⟩ := C70_signed_accepted H verify [is] (by simpa using hg) tx3 hs3 hr3
  have hsign : is.SignAuto H tx3 = .ok tx4 := by
    unfold signWithAll at s1
    rw [List.foldlM_cons] at s1
    rcases h : is.SignAuto H tx3 with t | e | _ <;> rw [h] at s1
    · simpa [List.foldlM_nil] using s1
    · cases s1
    · cases s1
  obtain ⟨inp, e1, e2, e3, e4, e5, e6⟩ := input_same_full s2 _ i0 hi3
  have hacc := s3 is (by simp) _ i0 hi3 hid rfl
  refine ⟨tx1, o, tx3, tx4, inp, hpay, rfl, rfl, hfrom, hsign, s2.2.2.1.symm, ?_, e1, ?_, hacc⟩
  · have := congrArg List.length s2.2.2.2
    simpa [tx3] using this.symm
  · simp only [outpoint, ← e2, ← e3, i0, (C38_txid_form H tx1).1, hexDecodeIgnore_encode, List.reverse_reverse]
    rw [UInt32.toNat_ofNat', Nat.mod_eq_of_lt hv]

/-! ## The hypotheses are met -/

/-- A toy signature check that accepts exactly the toy signer's signatures under its key. -/
def toyVerify (pub d s : Bytes) : Bool := pub == toySigner.pubKey && s == d.take 9

theorem toySigner_good : GoodSigner toyVerify toySigner :=
  ⟨toySigner_sized, by decide, fun d => ⟨d.take 9, rfl, by simp [toyVerify]⟩⟩

theorem exMany_sized : Sized exMany := by
  refine ⟨by decide, by decide, ?_, ?_⟩ <;> decide +kernel

theorem exMany_readable : ReadableScripts exMany := by
  intro i hi
  revert i
  decide +kernel

/-- Signing the example with the toy key makes input 0, and only that one, spendable; an unsigned transaction is not accepted. -/
example : ∃ tx' h, h = toyH.ripemd160 (toyH.sha256 toySigner.pubKey) ∧ signWithAll toyH [toySigner] exMany = .ok tx' ∧ Accepted toyH toyVerify tx' 0 (p2pkh h) 5 ∧
    ¬ Accepted toyH toyVerify exMany 0 (p2pkh h) 5 := by
  obtain ⟨tx', h1, -, h3⟩ := C70_signed_accepted toyH toyVerify [toySigner] (by simpa using toySigner_good) exMany exMany_sized exMany_readable
  have e0 : exMany.Inputs[0]? = some ⟨List.replicate 64 49, 1, 5, some (p2pkh (toyH.ripemd160 (toyH.sha256 toySigner.pubKey))), none, 1⟩ := rfl
  have h4 := h3 toySigner (by simp) 0 _ e0 (by simp) rfl
  have h5 : ¬ Accepted toyH toyVerify exMany 0 (p2pkh (toyH.ripemd160 (toyH.sha256 toySigner.pubKey))) 5 := by
    rintro ⟨inp, unl, _, _, _, _, e1, e2, -⟩
    rw [e0, Option.some.injEq] at e1
    rw [← e1] at e2
    simp at e2
  exact ⟨tx', _, rfl, h1, h4, h5⟩

example : ∃ tx1 tx3 tx4, exTx.PayTo (Address.NewFromPublicKey toyH toySigner.pubKey true).AddressString 7 = .ok tx1 ∧ toySigner.SignAuto toyH tx3 = .ok tx4 ∧
    Accepted toyH toyVerify tx4 3 (p2pkh (toyH.ripemd160 (toyH.sha256 toySigner.pubKey))) 7 := by
  obtain ⟨tx1, o, tx3, tx4, inp, h1, h2, h3, -, h5, -, -, -, -, h10⟩ :=
    C71_pay_then_spend toyH toyVerify toySigner toySigner_good true exTx exMany 7 (by decide) exMany_sized (by decide) exMany_readable
  have hl : exMany.Inputs.length = 3 := by decide +kernel
  rw [hl, h3] at h10
  have ho : o.LockingScript = p2pkh (toyH.ripemd160 (toyH.sha256 toySigner.pubKey)) := by
    obtain ⟨ha, -⟩ := C27_constructors_agree toyH toySigner.pubKey true
    simp only [Transaction.PayTo, Output.NewP2PKHFromAddress, ha, Res.ok_bind, Res.pure_eq, Res.ok.injEq] at h1
    subst h1
    simp only [AddOutput, List.append_cancel_left_eq, List.cons.injEq, and_true] at h2
    rw [← h2]
    exact (C14_p2pkh_form toyH _).1
  rw [ho] at h10
  exact ⟨tx1, tx3, tx4, h1, h5, h10⟩

end Verif.Props
