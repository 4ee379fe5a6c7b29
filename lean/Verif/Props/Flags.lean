import Verif.Model.SigHashFlag
import Verif.Spec.Flags
import Verif.Props.Spendable
import Verif.Props.Ledger
/-!
# C133: which flags make signatures that nodes accept
-/
namespace Verif.Props
open Verif Spec Transaction

/-- The flags that work: the default, and the exported constants with FORKID for ALL, NONE and SINGLE, each also with ANYONECANPAY. -/
def workingFlags : List UInt8 := [sighash.Old, sighash.AllForkID, sighash.NoneForkID, sighash.SingleForkID,
  sighash.AllForkID ||| sighash.AnyOneCanPay, sighash.NoneForkID ||| sighash.AnyOneCanPay, sighash.SingleForkID ||| sighash.AnyOneCanPay]

theorem definedFlag_iff (f : UInt8) : DefinedFlag (flagOrDefault f) = true ↔ f ∈ workingFlags := by
  have h : ∀ n : Fin 256, DefinedFlag (flagOrDefault (UInt8.ofNat n.val)) = decide (UInt8.ofNat n.val ∈ workingFlags) := by decide +kernel
  have hf : UInt8.ofNat f.toNat = f := UInt8.ofNat_toNat
  have := h ⟨f.toNat, f.toNat_lt⟩
  simp only [hf] at this
  rw [this, decide_eq_true_iff]

theorem goodKey_sized {verify : Bytes → Bytes → Bytes → Bool} {is : InternalSigner} (h : GoodKey verify is) : SignerSized is := by
  refine ⟨h.2.1, fun d s e => ?_⟩
  obtain ⟨s', e', hl, -⟩ := h.2.2 d
  rw [e] at e'; injection e' with e'; subst e'; exact hl

/-- An input with a signature of a flag that nodes do not know is refused. -/
theorem unlocking_undefined (H : HashFns) (verify : Bytes → Bytes → Bytes → Bool) (tx : Transaction) (k : Nat) (inp : Input) (sig pub : Bytes) (flag : UInt8) (hi : tx.Inputs[k]? = some inp)
    (hu : inp.UnlockingScript = some (unlocking sig flag pub)) (hl : sig.length + 1 < 2 ^ 32) (hpl : pub.length < 2 ^ 32) (hf : DefinedFlag flag = false) (hash : Bytes) (h20 : hash.length = 20) (sats : UInt64) :
    ¬ Accepted H verify tx k (p2pkh hash) sats := by
  rw [C83_p2pkh_iff H verify tx _ hash h20 sats]
  rintro ⟨inp', unl, before, item, pub', g1, g2, g3, -, s, f, g4, g5, -⟩
  rw [hi] at g1; injection g1 with g1; subst g1
  rw [hu] at g2; injection g2 with g2
  have hun : unlocking sig flag pub = [sig ++ [flag], pub].flatMap push := by simp [unlocking]
  rw [← g2, hun, pushes_iff _ _ (by
    intro d hd
    simp only [List.mem_cons, List.not_mem_nil, or_false] at hd
    rcases hd with rfl | rfl
    · simp; omega
    · exact hpl)] at g3
  have hlen := congrArg List.length g3
  simp only [List.length_append, List.length_cons, List.length_nil] at hlen
  have hb : before = [] := List.length_eq_zero_iff.mp (by omega)
  rw [hb, List.nil_append, List.cons.injEq] at g3
  rw [g4] at g3
  have := List.append_inj_right' g3.1 rfl
  rw [List.cons.injEq] at this
  rw [this.1, hf] at g5
  cases g5

/-- What `Sign` and `SignAuto` put on an input of the key. -/
theorem flag_cases (H : HashFns) (verify : Bytes → Bytes → Bytes → Bool) (is : InternalSigner) (hk : GoodKey verify is) (tx : Transaction) (hs : Sized tx) (idx : UInt32) (inp : Input)
    (hi : tx.Inputs[idx.toNat]? = some inp) (ht : inp.PreviousTxID ≠ []) (hc : inp.PreviousTxScript = some (p2pkh (H.ripemd160 (H.sha256 is.pubKey)))) :
    ∃ t sig, is.Sign H idx tx = .ok t ∧ t = withUnlocking tx idx.toNat (unlocking sig (flagOrDefault is.SigHashFlag) is.pubKey) ∧ sig.length + 1 < 2 ^ 32 ∧
      verify is.pubKey (H.sha256 (H.sha256 (preimage (fun b => H.sha256 (H.sha256 b)) tx idx.toNat inp (p2pkh (H.ripemd160 (H.sha256 is.pubKey))) (flagOrDefault is.SigHashFlag)))) sig = true := by
  have hz := goodKey_sized hk
  have hok := (C47_domain H is (fun d => by obtain ⟨s, e, -⟩ := hk.2.2 d; rw [e]; rfl) tx hs idx).mpr ⟨inp, _, hi, ht, hc⟩
  obtain ⟨t, h⟩ : ∃ t, is.Sign H idx tx = .ok t := by
    revert hok; cases is.Sign H idx tx <;> simp [Res.isOk]
  obtain ⟨inp', code, sig, g1, g2, g3, g4, e⟩ := C47_sign_ok H is hz tx hs idx t h
  rw [hi] at g1; injection g1 with g1; subst g1
  rw [hc] at g3; injection g3 with g3; subst g3
  obtain ⟨s, e1, e2, e3⟩ := hk.2.2 (H.sha256 (H.sha256 (preimage (fun b => H.sha256 (H.sha256 b)) tx idx.toNat inp (p2pkh (H.ripemd160 (H.sha256 is.pubKey))) (flagOrDefault is.SigHashFlag))))
  rw [g4] at e1; injection e1 with e1; subst e1
  exact ⟨t, sig, h, e, e2, e3⟩

theorem flag_accepted (H : HashFns) (verify : Bytes → Bytes → Bytes → Bool) (is : InternalSigner) (hk : GoodKey verify is) {tx tx' : Transaction} (hsame : SameButUnlocking tx tx') (k : Nat) (inp : Input) (sig : Bytes)
    (hi : tx'.Inputs[k]? = some { inp with UnlockingScript := some (unlocking sig (flagOrDefault is.SigHashFlag) is.pubKey) }) (hl : sig.length + 1 < 2 ^ 32)
    (hv : verify is.pubKey (H.sha256 (H.sha256 (preimage (fun b => H.sha256 (H.sha256 b)) tx k inp (p2pkh (H.ripemd160 (H.sha256 is.pubKey))) (flagOrDefault is.SigHashFlag)))) sig = true) :
    Accepted H verify tx' k (p2pkh (H.ripemd160 (H.sha256 is.pubKey))) inp.PreviousTxSatoshis ↔ is.SigHashFlag ∈ workingFlags := by
  constructor
  · intro ha
    by_contra hf
    exact unlocking_undefined H verify tx' k _ sig is.pubKey _ hi rfl hl hk.2.1 (by
      by_contra hd
      exact hf ((definedFlag_iff _).mp (by simpa using hd))) _ (H.ripemd160_length _) _ ha
  · intro hf
    refine accepted_of_unlocking H verify _ k _ sig is.pubKey _ _ hi rfl hl hk.2.1 hk.1 ((definedFlag_iff _).mpr hf) ?_
    rw [← hv]
    congr 3
    rw [← preimage_same hsame]
    rfl

/-- C133, `Sign`: it succeeds whatever the flag, and the input is accepted exactly if the flag is one of those that work. -/
theorem C133_sign (H : HashFns) (verify : Bytes → Bytes → Bytes → Bool) (is : InternalSigner) (hk : GoodKey verify is) (tx : Transaction) (hs : Sized tx) (idx : UInt32) (inp : Input)
    (hi : tx.Inputs[idx.toNat]? = some inp) (ht : inp.PreviousTxID ≠ []) (hc : inp.PreviousTxScript = some (p2pkh (H.ripemd160 (H.sha256 is.pubKey)))) :
    ∃ tx', is.Sign H idx tx = .ok tx' ∧ (Accepted H verify tx' idx.toNat (p2pkh (H.ripemd160 (H.sha256 is.pubKey))) inp.PreviousTxSatoshis ↔ is.SigHashFlag ∈ workingFlags) := by
  obtain ⟨t, sig, h, rfl, h2, h3⟩ := flag_cases H verify is hk tx hs idx inp hi ht hc
  refine ⟨_, h, flag_accepted H verify is hk (withUnlocking_same tx idx.toNat _) idx.toNat inp sig ?_ h2 h3⟩
  simp only [withUnlocking, List.getElem?_mapIdx, hi, Option.map_some, if_true]

theorem signAuto_flag (H : HashFns) (verify : Bytes → Bytes → Bytes → Bool) (is : InternalSigner) (hk : GoodKey verify is) (tx : Transaction) (hs : Sized tx) (hr : ReadableScripts tx) :
    ∃ tx', is.SignAuto H tx = .ok tx' ∧ SameButUnlocking tx tx' ∧ ∀ k inp, tx.Inputs[k]? = some inp → inp.PreviousTxID ≠ [] → inp.PreviousTxScript = some (p2pkh (H.ripemd160 (H.sha256 is.pubKey))) →
      (∃ sig, tx'.Inputs[k]? = some { inp with UnlockingScript := some (unlocking sig (flagOrDefault is.SigHashFlag) is.pubKey) } ∧ sig.length + 1 < 2 ^ 32) ∧
      (Accepted H verify tx' k (p2pkh (H.ripemd160 (H.sha256 is.pubKey))) inp.PreviousTxSatoshis ↔ is.SigHashFlag ∈ workingFlags) := by
  have hp : ∀ d, is.sign d ≠ .panic := fun d => by obtain ⟨s, e, -⟩ := hk.2.2 d; rw [e]; simp
  obtain ⟨tx', h1, -, -, -, -, h6⟩ := C48_signAuto H is (goodKey_sized hk) hp tx hs hr
  have hsame : SameButUnlocking tx tx' := auto_same h1
  refine ⟨tx', h1, hsame, fun k inp hi ht hc => ?_⟩
  have hkk : (UInt32.ofNat k).toNat = k := by
    have : k < tx.Inputs.length := (List.getElem?_eq_some_iff.mp hi).1
    rw [UInt32.toNat_ofNat']; exact Nat.mod_eq_of_lt (by have := hs.1; omega)
  obtain ⟨t, sig, g1, g2, g3, g4⟩ := flag_cases H verify is hk tx hs (UInt32.ofNat k) inp (by rw [hkk]; exact hi) ht hc
  rw [hkk] at g2 g4
  have hin : tx'.Inputs[k]? = some { inp with UnlockingScript := some (unlocking sig (flagOrDefault is.SigHashFlag) is.pubKey) } := by
    rw [((h6 k inp hi).2 (selected_p2pkh _ (H.ripemd160_length _) inp ht hc)).1 t g1, g2]
    simp only [withUnlocking, List.getElem?_mapIdx, hi, Option.map_some, if_true]
  exact ⟨⟨sig, hin, g3⟩, flag_accepted H verify is hk hsame k inp sig hin g3 g4⟩

/-- C133, `SignAuto`: the same for every input that spends a P2PKH output of the key. -/
theorem C133_signAuto (H : HashFns) (verify : Bytes → Bytes → Bytes → Bool) (is : InternalSigner) (hk : GoodKey verify is) (tx : Transaction) (hs : Sized tx) (hr : ReadableScripts tx) :
    ∃ tx', is.SignAuto H tx = .ok tx' ∧ ∀ k inp, tx.Inputs[k]? = some inp → inp.PreviousTxID ≠ [] → inp.PreviousTxScript = some (p2pkh (H.ripemd160 (H.sha256 is.pubKey))) →
      (Accepted H verify tx' k (p2pkh (H.ripemd160 (H.sha256 is.pubKey))) inp.PreviousTxSatoshis ↔ is.SigHashFlag ∈ workingFlags) := by
  obtain ⟨tx', h1, -, h2⟩ := signAuto_flag H verify is hk tx hs hr
  exact ⟨tx', h1, fun k inp hi ht hc => (h2 k inp hi ht hc).2⟩

/-- C133, a payment: made with `From`, `PayTo` and `AddOutput` and signed with `SignAuto`. Nothing fails whatever the flag, and a node accepts it exactly if the flag works and the payment can be made (and the bytes are not too many
and no other transaction has the same hash). -/
theorem C133_payment (H : HashFns) (verify : Bytes → Bytes → Bytes → Bool) (is : InternalSigner) (hk : GoodKey verify is) (L : Ledger) (calls : List Call)
    (hc : ∀ c ∈ calls, PaymentCall L [H.ripemd160 (H.sha256 is.pubKey)] c) (hlen : calls.length < 2 ^ 31) :
    ∃ tx tx', applyCalls Transaction.New calls = .ok (tx, List.replicate calls.length true) ∧ is.SignAuto H tx = .ok tx' ∧
      ((∃ L', NodeAccepts H verify L tx'.ToBytes L') ↔ is.SigHashFlag ∈ workingFlags ∧
        Payable calls ∧ tx'.ToBytes.length ≤ maxTxBytes ∧ ∀ n < 2 ^ 32, L (H.sha256 (H.sha256 tx'.ToBytes) ++ leBytes 4 n) = none) := by
  by_cases hf : is.SigHashFlag ∈ workingFlags
  · have hg : GoodSigner verify is := ⟨goodKey_sized hk, ⟨hk.1, (definedFlag_iff _).mpr hf⟩, fun d => by obtain ⟨s, e, -, h⟩ := hk.2.2 d; exact ⟨s, e, h⟩⟩
    obtain ⟨tx, tx', h1, h2, -, -, h3, -⟩ := C115_payment H verify [is] (by simpa using hg) L calls hc hlen
    refine ⟨tx, tx', h1, ?_, by rw [h3]; simp [hf]⟩
    have : signWithAll H [is] tx = is.SignAuto H tx := by
      unfold signWithAll
      rw [List.foldlM_cons]
      cases is.SignAuto H tx <;> rfl
    rw [← this]; exact h2
  · have hb := built calls (payment_wellFormed hc)
    obtain ⟨tx, htx⟩ : ∃ tx : Transaction, tx = { Transaction.New with Inputs := calls.flatMap Call.ins, Outputs := calls.flatMap Call.outs } := ⟨_, rfl⟩
    rw [← htx] at hb
    have hi1 : tx.Inputs = calls.flatMap Call.ins := by rw [htx]
    have ho1 : tx.Outputs = calls.flatMap Call.outs := by rw [htx]
    obtain ⟨l1, l2⟩ := ins_length calls
    have hpi := payment_inputs hc
    rw [← hi1] at hpi
    have h20 := H.ripemd160_length (H.sha256 is.pubKey)
    have hpi' : ∀ i ∈ tx.Inputs, IsTxId i.PreviousTxID ∧ i.PreviousTxScript = some (p2pkh (H.ripemd160 (H.sha256 is.pubKey))) ∧ L (outpoint i) = some ⟨i.PreviousTxSatoshis, p2pkh (H.ripemd160 (H.sha256 is.pubKey))⟩ := by
      intro i hi
      obtain ⟨a, ⟨h, hm, b, c⟩, -⟩ := hpi i hi
      rw [List.mem_singleton.mp hm] at b c
      exact ⟨a, b, c⟩
    have hs : Sized tx := by
      refine ⟨by rw [hi1]; omega, by rw [ho1]; omega, by rw [ho1]; exact payment_outputs hc, ?_⟩
      intro i hi s hsome
      rw [(hpi' i hi).2.1] at hsome
      injection hsome with hsome
      rw [← hsome]; simp [p2pkh, h20]
    have hrd : ReadableScripts tx := fun i hi hpan => by
      rw [(hpi' i hi).2.1, p2pkh, C14_getPublicKeyHash _ h20] at hpan
      cases hpan
    obtain ⟨tx', s1, s2, s3⟩ := signAuto_flag H verify is hk tx hs hrd
    refine ⟨tx, tx', hb, s1, ⟨?_, fun h => absurd h.1 hf⟩⟩
    rintro ⟨L', h1, -, t, h3, h4, -⟩
    exfalso
    have ht' := txids_same s2 fun i hi => (hpi' i hi).1
    have hmx : maxTxBytes < 2 ^ 62 := by decide
    have e1 := (C35_accepts_iff tx'.ToBytes [] (by simp; omega) t).mpr (isTx_mono h3)
    have e2 := C33_parse_serialise tx' ht' [] (by simp; omega)
    rw [e1] at e2
    injection e2 with e2
    subst e2
    have hne : tx'.Inputs ≠ [] := by
      have := h4.inputs
      simpa [wireTx] using this
    obtain ⟨i, hik⟩ : ∃ i, tx'.Inputs[0]? = some i := by
      rcases hx : tx'.Inputs with _ | ⟨i, is⟩
      · exact absurd hx hne
      · exact ⟨i, rfl⟩
    have hlt : 0 < tx.Inputs.length := by
      have e1 := (List.getElem?_eq_some_iff.mp hik).1
      have := congrArg List.length s2.2.2.2
      simp only [List.length_map] at this
      omega
    obtain ⟨inp, hki⟩ : ∃ inp, tx.Inputs[0]? = some inp := ⟨_, List.getElem?_eq_getElem hlt⟩
    obtain ⟨a, b, c⟩ := hpi' inp (List.mem_of_getElem? hki)
    obtain ⟨⟨sig, g1, g2⟩, -⟩ := s3 0 inp hki (by intro e; have := a.1; rw [e] at this; simp at this) b
    have hw : (wireTx tx').Inputs[0]? = some (wireInput { inp with UnlockingScript := some (unlocking sig (flagOrDefault is.SigHashFlag) is.pubKey) }) := by
      simp only [wireTx, List.getElem?_map, g1, Option.map_some]
    obtain ⟨c', c1, c2⟩ := h4.spends 0 _ hw
    have hout := wireInput_outpoint { inp with UnlockingScript := some (unlocking sig (flagOrDefault is.SigHashFlag) is.pubKey) } a
    have : L (outpoint inp) = some c' := by rw [← c1, hout]; rfl
    rw [c] at this
    injection this with this
    subst this
    exact unlocking_undefined H verify (wireTx tx') 0 _ sig is.pubKey _ hw rfl g2 hk.2.1 (by
      by_contra hd
      exact hf ((definedFlag_iff _).mp (by simpa using hd))) _ h20 _ c2

/-- C133 (violated): five of the exported constants that can be given to a signer do not work, among them `AnyOneCanPayForkID`, which like `AllForkID`, `NoneForkID` and `SingleForkID` is meant for use since the fork. Signing with
them reports no error, and no node ever accepts the payment. -/
theorem C133_violated (H : HashFns) (verify : Bytes → Bytes → Bytes → Bool) (is : InternalSigner) (hk : GoodKey verify is) (L : Ledger) (calls : List Call)
    (hc : ∀ c ∈ calls, PaymentCall L [H.ripemd160 (H.sha256 is.pubKey)] c) (hlen : calls.length < 2 ^ 31)
    (hflag : is.SigHashFlag ∈ [sighash.AnyOneCanPayForkID, sighash.All, sighash.None, sighash.Single, sighash.AnyOneCanPay]) :
    ∃ tx tx', applyCalls Transaction.New calls = .ok (tx, List.replicate calls.length true) ∧ is.SignAuto H tx = .ok tx' ∧ ∀ L', ¬ NodeAccepts H verify L tx'.ToBytes L' := by
  obtain ⟨tx, tx', h1, h2, h3⟩ := C133_payment H verify is hk L calls hc hlen
  refine ⟨tx, tx', h1, h2, fun L' hL' => ?_⟩
  have := (h3.mp ⟨L', hL'⟩).1
  simp only [List.mem_cons, List.not_mem_nil, or_false] at hflag
  rcases hflag with e | e | e | e | e <;> rw [e] at this <;> revert this <;> decide

/-- The hypotheses are met: a key with the flag `AnyOneCanPayForkID` and a payment that could be made. -/
example : GoodKey toyVerify { toySigner with SigHashFlag := sighash.AnyOneCanPayForkID } ∧ GoodKey toyVerify { toySigner with SigHashFlag := sighash.AllForkID ||| sighash.AnyOneCanPay } ∧
    (∀ c ∈ exPay1.calls, PaymentCall exLedger [toyH.ripemd160 (toyH.sha256 toySigner.pubKey)] c) ∧ Payable exPay1.calls := by
  have hk : ∀ f, GoodKey toyVerify { toySigner with SigHashFlag := f } := fun f =>
    ⟨by simp [toySigner], by simp [toySigner], fun d => ⟨d.take 9, rfl, by rw [List.length_take]; omega, by simp [toyVerify]⟩⟩
  refine ⟨hk _, hk _, ?_, ⟨⟨_, List.mem_cons_self, by simp [Call.spent]⟩, ⟨_, List.mem_cons_of_mem _ List.mem_cons_self, by simp [Call.outs]⟩, by decide +kernel, by decide, by decide⟩⟩
  intro c hc
  simp only [Payment.calls, exPay1, List.map_cons, List.map_nil, List.cons_append, List.nil_append, List.mem_cons, List.not_mem_nil, or_false] at hc
  rcases hc with rfl | rfl | rfl
  · exact ⟨by unfold IsTxId; decide +kernel, _, List.mem_singleton.mpr rfl, (isHexString_iff _).mpr (isHex_encode _), hexDecodeIgnore_encode _, by simp [exLedger, exCoin, WalletCoin.key]⟩
  · exact show IsAddressLike _ by decide +kernel
  · exact show IsAddressLike _ by decide +kernel

end Verif.Props
