import Verif.Spec.Authorise
import Verif.Props.Chain
import Verif.Props.SigBind
import Verif.Props.Spendable
/-!
# C117: what the signatures made with the library authorise
-/
namespace Verif.Props
open Verif Spec Transaction

/-! ## What the signer is asked -/

/-- C117, `Sign`: the key is used for nothing but the digest of the input. Two signers with the same key and flag whose answers agree on this digest do the same. -/
theorem C117_sign_asks (H : HashFns) (is is' : InternalSigner) (hp : is'.pubKey = is.pubKey) (hf : is'.SigHashFlag = is.SigHashFlag) (tx : Transaction) (hs : Sized tx) (idx : UInt32)
    (h : ∀ d, Asked H (flagOrDefault is.SigHashFlag) tx idx.toNat d → is'.sign d = is.sign d) : is'.Sign H idx tx = is.Sign H idx tx := by
  rw [sign_eq, sign_eq, hp, hf]
  rcases sighash_cases H tx hs idx (flagOrDefault is.SigHashFlag) with ⟨-, e⟩ | ⟨_, _, -, -, e⟩ | ⟨inp, code, hi, ht, hc, e⟩ <;> rw [e]
  · rfl
  · rfl
  · rw [Res.ok_bind, Res.ok_bind, List.reverse_reverse, h _ ⟨inp, code, hi, hc, rfl⟩]

theorem asked_same {H : HashFns} {flag : UInt8} {tx t : Transaction} (h : SameButUnlocking tx t) {k : Nat} {d : Bytes} (ha : Asked H flag t k d) : Asked H flag tx k d := by
  obtain ⟨inp, code, hi, hc, rfl⟩ := ha
  obtain ⟨i, e1, e2, e3, e4, e5, e6⟩ := input_same_full h.symm k inp hi
  refine ⟨i, code, e1, by rw [← e5]; exact hc, ?_⟩
  rw [preimage_same h, preimage_inp _ _ _ inp i code flag e2 e3 e4 e6]

/-- C117, `SignAuto`: the key is used for nothing but the digests of the inputs whose previous script begins like a payment to the key. -/
theorem C117_signAuto_asks (H : HashFns) (is is' : InternalSigner) (hp : is'.pubKey = is.pubKey) (hf : is'.SigHashFlag = is.SigHashFlag) (tx : Transaction) (hs : Sized tx)
    (h : ∀ k inp code d, tx.Inputs[k]? = some inp → inp.PreviousTxScript = some code → BeginsPayTo (H.ripemd160 (H.sha256 is.pubKey)) code →
      Asked H (flagOrDefault is.SigHashFlag) tx k d → is'.sign d = is.sign d) : is'.SignAuto H tx = is.SignAuto H tx := by
  unfold InternalSigner.SignAuto
  suffices hmain : ∀ n i t, SameButUnlocking tx t → is'.signAutoLoop H n i t = is.signAutoLoop H n i t from hmain _ _ _ (SameButUnlocking.refl _)
  intro n
  induction n with
  | zero => intro i t _; rfl
  | succ n ih =>
    intro i t ht
    have hstep : is'.signAutoStep H i t = is.signAutoStep H i t := by
      unfold InternalSigner.signAutoStep
      rcases hi : t.Inputs[i]? with _ | inp
      · rfl
      simp only
      rcases hg : GetPublicKeyHash inp.PreviousTxScript with g | e | _ <;> simp only [hp]
      · by_cases hc : hexEncode g = hexEncode (Hash160 H is.pubKey)
        · have hgk : g = Hash160 H is.pubKey := by
            have := congrArg hexDecodeIgnore hc
            rwa [hexDecodeIgnore_encode, hexDecodeIgnore_encode] at this
          obtain ⟨code, hcode, hbeg⟩ := (getPublicKeyHash_ok_iff _ _).mp hg
          have hlt : i < t.Inputs.length := (List.getElem?_eq_some_iff.mp hi).1
          have hst := sized_same hs ht
          have hk : (UInt32.ofNat i).toNat = i := by
            rw [UInt32.toNat_ofNat']; exact Nat.mod_eq_of_lt (by have := hst.1; omega)
          rw [C117_sign_asks H is is' hp hf t hst (UInt32.ofNat i)]
          rw [hk]
          intro d hd
          obtain ⟨i0, e1, -, -, -, e4, -⟩ := input_same_full ht.symm i inp hi
          refine h i i0 code d e1 (by rw [← e4]; exact hcode) ?_ (asked_same ht hd)
          rw [hgk] at hbeg
          exact hbeg
        · rw [if_neg hc, if_neg hc]
      · have hne : ¬ (hexEncode [] = hexEncode (Hash160 H is.pubKey)) := by
          intro e
          have h20 := H.ripemd160_length (H.sha256 is.pubKey)
          have := congrArg hexDecodeIgnore e
          rw [hexDecodeIgnore_encode, hexDecodeIgnore_encode] at this
          rw [show H.ripemd160 (H.sha256 is.pubKey) = [] from this.symm] at h20
          cases h20
        rw [if_neg hne, if_neg hne]
    simp only [InternalSigner.signAutoLoop, hstep]
    rcases hr : is.signAutoStep H i t with t' | e | _
    · rw [Res.ok_bind, Res.ok_bind]
      exact ih _ _ (ht.trans (autoStep_same hr))
    · rfl
    · rfl

/-! ## What is accepted -/

theorem outpoint_of_lower {i i' : Input} (h : IsTxId i.PreviousTxID) (h' : IsTxId i'.PreviousTxID) (e1 : i.PreviousTxID.map lowerChar = i'.PreviousTxID.map lowerChar)
    (e2 : i.PreviousTxOutIndex = i'.PreviousTxOutIndex) : outpoint i = outpoint i' := by
  unfold outpoint
  rw [← hexDecodeIgnore_lower (isTxId_iff.mp h).1, ← hexDecodeIgnore_lower (isTxId_iff.mp h').1, e1, e2]

/-- C117: if nobody can make signatures for the key except by having it sign, then whoever made it, a transaction whose input `j` spends an output paid to the key is accepted only if one of the
inputs that were signed authorises it: with the same version, locktime and outpoint, and with the flag ALL the same inputs, sequence numbers and outputs. The only ways around it exhibit a collision
of a hash function. -/
theorem C117_accepted (H : HashFns) (verify : Bytes → Bytes → Bytes → Bool) (pub : Bytes) (flag : UInt8) (signed : List (Transaction × Nat))
    (hsz : ∀ q ∈ signed, Sized q.1 ∧ ∀ i ∈ q.1.Inputs, IsTxId i.PreviousTxID) (honly : OnlySigned H verify pub flag signed)
    (tx : Transaction) (ho : ∀ o ∈ tx.Outputs, o.LockingScript.length < 2 ^ 64) (ht : ∀ i ∈ tx.Inputs, IsTxId i.PreviousTxID) (j : Nat) (sats : UInt64)
    (hacc : Accepted H verify tx j (p2pkh (H.ripemd160 (H.sha256 pub))) sats) :
    (∃ q ∈ signed, Authorises flag q.1 q.2 tx j ⟨sats, p2pkh (H.ripemd160 (H.sha256 pub))⟩) ∨ KeyCollision H pub tx j ∨
      ∃ q ∈ signed, DigestCollision H flag q.1 q.2 tx j ⟨sats, p2pkh (H.ripemd160 (H.sha256 pub))⟩ := by
  have h20 := H.ripemd160_length (H.sha256 pub)
  obtain ⟨inp, unl, before, item, pub', hi, hu, hpush, hh, sig, fl, -, -, hv⟩ := (C83_p2pkh_iff H verify tx j _ h20 sats).mp hacc
  by_cases hpub : pub' = pub
  swap
  · exact .inr (.inl ⟨inp, unl, before ++ [item], pub', hi, hu, by simpa using hpush, hpub, hh⟩)
  subst hpub
  obtain ⟨⟨t, k⟩, hq, inp', code, hi', hc', hd⟩ := honly _ _ hv
  obtain ⟨hst, htt⟩ := hsz _ hq
  have hm := List.mem_of_getElem? hi
  have hm' := List.mem_of_getElem? hi'
  simp only at hst htt hm' hi' hd
  -- what a parsed input lacks, the script of the output it spends, is not looked at
  have hd' : H.sha256 (H.sha256 (preimage (fun b => H.sha256 (H.sha256 b)) tx j { inp with PreviousTxSatoshis := sats, PreviousTxScript := inp'.PreviousTxScript }
      (p2pkh (H.ripemd160 (H.sha256 pub'))) fl)) = H.sha256 (H.sha256 (preimage (fun b => H.sha256 (H.sha256 b)) t k inp' code flag)) := hd
  rcases preimage_binds H tx t ho hst.2.2.1 ht htt j k fl flag { inp with PreviousTxSatoshis := sats, PreviousTxScript := inp'.PreviousTxScript } inp' (p2pkh (H.ripemd160 (H.sha256 pub'))) code (ht inp hm) (htt _ hm')
    (by simp [p2pkh, h20]) (hst.2.2.2 _ hm' _ hc') hd' with ⟨hcode, hb⟩ | hcol
  swap
  · exact .inr (.inr ⟨_, hq, inp, inp', code, fl, hi, hi', hc', hcol⟩)
  left
  obtain ⟨rfl, b2, b3, b4, b5, -, b7, b8, b9, b10, b11, b12⟩ := hb rfl
  refine ⟨_, hq, b2, b3, ⟨inp, inp', hi, hi', outpoint_of_lower (ht _ hm) (htt _ hm') b4 b5, b8, by rw [hc', hcode], b7.symm⟩, ?_, b10, b11, b12⟩
  intro ha
  have hmap := b9 ha
  have hlen : tx.Inputs.length = t.Inputs.length := by simpa using congrArg List.length hmap
  apply List.ext_getElem (by simpa using hlen)
  intro n h1 h2
  simp only [List.length_map] at h1 h2
  have hn := congrArg (·[n]?) hmap
  simp only [List.getElem?_map, List.getElem?_eq_getElem h1, List.getElem?_eq_getElem h2, Option.map_some, Option.some.injEq, Prod.mk.injEq] at hn
  simp only [List.getElem_map]
  exact outpoint_of_lower (ht _ (List.getElem_mem h1)) (htt _ (List.getElem_mem h2)) hn.1 hn.2

/-- An output paid to the key is still there after a transaction, unless the transaction is one that an input that was signed authorises (or shows a collision). -/
theorem C117_step (H : HashFns) (verify : Bytes → Bytes → Bytes → Bool) (pub : Bytes) (flag : UInt8) (signed : List (Transaction × Nat))
    (hsz : ∀ q ∈ signed, Sized q.1 ∧ ∀ i ∈ q.1.Inputs, IsTxId i.PreviousTxID) (honly : OnlySigned H verify pub flag signed)
    (L L' : Ledger) (b : Bytes) (hb : NodeAccepts H verify L b L') (key : Bytes) (sats : UInt64) (hk : L key = some ⟨sats, p2pkh (H.ripemd160 (H.sha256 pub))⟩) :
    L' key = L key ∨ ∃ tx j inp, IsTx MinCompactSize tx b ∧ tx.Inputs[j]? = some inp ∧ outpoint inp = key ∧
      ((∃ q ∈ signed, Authorises flag q.1 q.2 tx j ⟨sats, p2pkh (H.ripemd160 (H.sha256 pub))⟩) ∨ KeyCollision H pub tx j ∨
        ∃ q ∈ signed, DigestCollision H flag q.1 q.2 tx j ⟨sats, p2pkh (H.ripemd160 (H.sha256 pub))⟩) := by
  obtain ⟨h1, h2, tx, h3, h4, rfl⟩ := hb
  have hmx : maxTxBytes < 2 ^ 32 := by decide
  by_cases hin : key ∈ tx.Inputs.map outpoint
  · right
    obtain ⟨inp, hm, he⟩ := List.mem_map.mp hin
    obtain ⟨j, hj⟩ := List.mem_iff_getElem?.mp hm
    obtain ⟨c, hc, hacc⟩ := h4.spends j inp hj
    rw [he, hk] at hc
    cases hc
    refine ⟨tx, j, inp, h3, hj, he, C117_accepted H verify pub flag signed hsz honly tx ?_ (isTx_wire (isTx_mono h3)).2 j sats hacc⟩
    intro o ho
    obtain ⟨ci, bi, co, bo, -, -, -, g4, -⟩ := h3
    obtain ⟨bx, count, hcount, -⟩ := isSeq_mem g4 o ho
    exact (minCompactSize_iff.mp hcount).1
  · left
    unfold Ledger.after
    rcases hlk : (created (H.sha256 (H.sha256 b)) tx).lookup key with _ | c
    · simp only [if_neg hin]
    · exfalso
      obtain ⟨n, hlt, e⟩ := created_mem (mem_of_lookup _ hlk)
      have hn : n < 2 ^ 32 := by
        obtain ⟨ci, bi, co, bo, -, -, -, g4, rfl⟩ := h3
        have := isSeq_length (fun o b (h : IsOutput MinCompactSize o b) => by
          obtain ⟨count, -, rfl⟩ := h
          simp only [List.length_append, leBytes_length]; omega) _ _ g4
        simp only [List.length_append] at h1
        omega
      rw [e, h2 n hn] at hk
      cases hk

/-- C117, through a history: an output paid to the key stays unspent through any sequence of transactions by anyone, unless one of them is authorised by an input that was signed. -/
theorem C117_history (H : HashFns) (verify : Bytes → Bytes → Bytes → Bool) (pub : Bytes) (flag : UInt8) (signed : List (Transaction × Nat))
    (hsz : ∀ q ∈ signed, Sized q.1 ∧ ∀ i ∈ q.1.Inputs, IsTxId i.PreviousTxID) (honly : OnlySigned H verify pub flag signed) (bs : List Bytes) :
    ∀ (L L' : Ledger), NodeAcceptsAll H verify L bs L' → ∀ (key : Bytes) (sats : UInt64), L key = some ⟨sats, p2pkh (H.ripemd160 (H.sha256 pub))⟩ →
      L' key = L key ∨ ∃ b ∈ bs, ∃ tx j inp, IsTx MinCompactSize tx b ∧ tx.Inputs[j]? = some inp ∧ outpoint inp = key ∧
        ((∃ q ∈ signed, Authorises flag q.1 q.2 tx j ⟨sats, p2pkh (H.ripemd160 (H.sha256 pub))⟩) ∨ KeyCollision H pub tx j ∨
          ∃ q ∈ signed, DigestCollision H flag q.1 q.2 tx j ⟨sats, p2pkh (H.ripemd160 (H.sha256 pub))⟩) := by
  induction bs with
  | nil => intro L L' h key sats _; exact .inl (by rw [h])
  | cons b bs ih =>
    rintro L L' ⟨L1, h1, h2⟩ key sats hk
    rcases C117_step H verify pub flag signed hsz honly L L1 b h1 key sats hk with he | ⟨tx, j, inp, hx⟩
    · rcases ih L1 L' h2 key sats (by rw [he]; exact hk) with h | ⟨b', hb', h⟩
      · exact .inl (h.trans he)
      · exact .inr ⟨b', by simp [hb'], h⟩
    · exact .inr ⟨b, by simp, tx, j, inp, hx⟩

/-- The inputs of the transaction that the calls make. -/
def inputsOf (calls : List Call) : List (Transaction × Nat) :=
  match applyCalls Transaction.New calls with
  | .ok (t, _) => (List.range t.Inputs.length).map fun k => (t, k)
  | _ => []

/-- C117, a wallet: a key with a flag of type ALL without ANYONECANPAY has signed only inputs of transactions built by the payments `ps`. Then an output paid to the key stays unspent through any
history of accepted transactions, unless one of them spends exactly the outputs that one of the payments names, this one among them, and pays exactly what that payment pays. -/
theorem C117_wallet (H : HashFns) (verify : Bytes → Bytes → Bytes → Bool) (pub : Bytes) (flag : UInt8) (hf : anyoneCanPay flag = false ∧ isNone flag = false ∧ isSingle flag = false)
    (ps : List (List Call)) (hps : ∀ p ∈ ps, (∀ c ∈ p, BuildCall c) ∧ p.length < 2 ^ 31) (honly : OnlySigned H verify pub flag (ps.flatMap inputsOf))
    (bs : List Bytes) (L L' : Ledger) (hacc : NodeAcceptsAll H verify L bs L') (key : Bytes) (sats : UInt64) (hk : L key = some ⟨sats, p2pkh (H.ripemd160 (H.sha256 pub))⟩) :
    L' key = L key ∨
    (∃ b ∈ bs, ∃ tx, IsTx MinCompactSize tx b ∧ ∃ p ∈ ps, key ∈ p.flatMap Call.spent ∧ tx.Inputs.map outpoint = p.flatMap Call.spent ∧ tx.Outputs = p.flatMap Call.outs) ∨
    (∃ b ∈ bs, ∃ tx j, IsTx MinCompactSize tx b ∧ (KeyCollision H pub tx j ∨
      ∃ q ∈ ps.flatMap inputsOf, DigestCollision H flag q.1 q.2 tx j ⟨sats, p2pkh (H.ripemd160 (H.sha256 pub))⟩)) := by
  have hbuilt : ∀ p ∈ ps, ∀ q ∈ inputsOf p, q.1.Inputs = p.flatMap Call.ins ∧ q.1.Outputs = p.flatMap Call.outs := by
    intro p hp q hq
    have := built p (fun c hc => by
      have := (hps p hp).1 c hc
      cases c with
      | fromUtxo t v s sats => exact this.2.1
      | payTo a sats => exact this
      | addOutput o => trivial
      | addInput i => trivial)
    rw [inputsOf, this] at hq
    obtain ⟨k, -, rfl⟩ := List.mem_map.mp hq
    exact ⟨rfl, rfl⟩
  have hins : ∀ p ∈ ps, ∀ i ∈ p.flatMap Call.ins, IsTxId i.PreviousTxID ∧ ∀ s, i.PreviousTxScript = some s → s.length < 2 ^ 64 := by
    intro p hp i hi
    obtain ⟨c, hc, hic⟩ := List.mem_flatMap.mp hi
    have hb := (hps p hp).1 c hc
    cases c with
    | fromUtxo t v s sats =>
      rw [List.mem_singleton.mp hic]
      refine ⟨hb.1, fun s' hs' => ?_⟩
      injection hs' with hs'
      rw [← hs']
      have := hexDecodeIgnore_length ((isHexString_iff s).mp hb.2.1)
      have := hb.2.2
      omega
    | addInput i => exact hb.elim
    | addOutput o => simp [Call.ins] at hic
    | payTo a s => simp [Call.ins] at hic
  have houts : ∀ p ∈ ps, ∀ o ∈ p.flatMap Call.outs, o.LockingScript.length < 2 ^ 64 := by
    intro p hp o ho
    obtain ⟨c, hc, hoc⟩ := List.mem_flatMap.mp ho
    have hb := (hps p hp).1 c hc
    cases c with
    | fromUtxo t v s sats => simp [Call.outs] at hoc
    | addInput i => exact hb.elim
    | addOutput o' => rw [List.mem_singleton.mp hoc]; exact hb
    | payTo a s =>
      rw [List.mem_singleton.mp hoc]
      simp only [List.length_append, List.length_take, List.length_cons, List.length_nil]
      omega
  have hspent : ∀ p ∈ ps, (p.flatMap Call.ins).map outpoint = p.flatMap Call.spent := by
    intro p hp
    rw [List.map_flatMap]
    apply List.flatMap_congr
    intro c hc
    have hb := (hps p hp).1 c hc
    cases c with
    | fromUtxo t v s sats => rfl
    | addInput i => exact hb.elim
    | addOutput o => rfl
    | payTo a s => rfl
  have hsz : ∀ q ∈ ps.flatMap inputsOf, Sized q.1 ∧ ∀ i ∈ q.1.Inputs, IsTxId i.PreviousTxID := by
    intro q hq
    obtain ⟨p, hp, hq⟩ := List.mem_flatMap.mp hq
    obtain ⟨e1, e2⟩ := hbuilt p hp q hq
    obtain ⟨l1, l2⟩ := ins_length p
    have := (hps p hp).2
    refine ⟨⟨by rw [e1]; omega, by rw [e2]; omega, by rw [e2]; exact houts p hp, ?_⟩, ?_⟩
    · rw [e1]; exact fun i hi s hs => (hins p hp i hi).2 s hs
    · rw [e1]; exact fun i hi => (hins p hp i hi).1
  rcases C117_history H verify pub flag _ hsz honly bs L L' hacc key sats hk with h | ⟨b, hb, tx, j, inp, h1, h2, h3, h4⟩
  · exact .inl h
  rcases h4 with ⟨q, hq, ha⟩ | h4
  · right; left
    obtain ⟨p, hp, hqp⟩ := List.mem_flatMap.mp hq
    obtain ⟨e1, e2⟩ := hbuilt p hp q hqp
    have hin := ha.inputs hf.1
    rw [e1, hspent p hp] at hin
    refine ⟨b, hb, tx, h1, p, hp, ?_, hin, by rw [ha.outputs hf.2.1 hf.2.2, e2]⟩
    rw [← hin, ← h3]
    exact List.mem_map.mpr ⟨inp, List.mem_of_getElem? h2, rfl⟩
  · exact .inr (.inr ⟨b, hb, tx, j, h1, h4⟩)

/-! ## Other flags -/

/-- C117, the flag NONE: what `SignAuto` signs with it is good for any outputs whatever. Everyone who sees the signed transaction can send the money elsewhere. -/
theorem C117_none (H : HashFns) (verify : Bytes → Bytes → Bytes → Bool) (is : InternalSigner) (hg : GoodSigner verify is) (hf : isNone (flagOrDefault is.SigHashFlag) = true)
    (tx : Transaction) (hs : Sized tx) (hr : ReadableScripts tx) :
    ∃ tx', is.SignAuto H tx = .ok tx' ∧ ∀ k inp, tx.Inputs[k]? = some inp → inp.PreviousTxID ≠ [] → inp.PreviousTxScript = some (p2pkh (H.ripemd160 (H.sha256 is.pubKey))) →
      ∀ outs, Accepted H verify { tx' with Outputs := outs } k (p2pkh (H.ripemd160 (H.sha256 is.pubKey))) inp.PreviousTxSatoshis := by
  have h20 := H.ripemd160_length (H.sha256 is.pubKey)
  obtain ⟨tx', h1, h2, h3⟩ := signAuto_good H verify is hg tx hs hr
  refine ⟨tx', h1, fun k inp hi ht hc outs => ?_⟩
  have hsel := selected_p2pkh _ h20 inp ht hc
  obtain ⟨-, s, hsc, hbeg⟩ := hsel
  rw [hc] at hsc
  cases hsc
  obtain ⟨sig, g1, g2, g3⟩ := (h3 k inp hi).2 _ ht hc hbeg
  obtain ⟨hz, ⟨hp, hd⟩, -⟩ := hg
  refine accepted_of_unlocking H verify _ k _ sig is.pubKey (flagOrDefault is.SigHashFlag) _ g1 rfl g2 hz.1 hp hd ?_
  rw [preimage_same h2] at g3
  rw [← g3]
  congr 3
  unfold preimage outputsString
  rw [hf]
  rfl

/-! ## The hypotheses are met -/

/-- The transaction of the example payment, before it is signed. -/
def exUnsigned : Transaction := match applyCalls Transaction.New exPay1.calls with | .ok (t, _) => t | _ => Transaction.New

/-- The digest that was signed. -/
def exDigest : Bytes :=
  toyH.sha256 (toyH.sha256 (preimage (fun b => toyH.sha256 (toyH.sha256 b)) exUnsigned 0 (exUnsigned.Inputs.getD 0 Input.New) (p2pkh (toyH.ripemd160 (toyH.sha256 toySigner.pubKey))) 0x41))

/-- A check that accepts only the one signature that was made. -/
def exVerify (pub d s : Bytes) : Bool := toyVerify pub d s && d == exDigest

/-- The key has signed nothing but the payment; the node accepts the payment; the coin is gone afterwards, as the payment says. -/
example : OnlySigned toyH exVerify toySigner.pubKey 0x41 ([exPay1.calls].flatMap inputsOf) ∧ (∀ c ∈ exPay1.calls, BuildCall c) ∧
    NodeAcceptsAll toyH exVerify exLedger [exMempoolTx.ToBytes] (exLedger.after (toyH.sha256 (toyH.sha256 exMempoolTx.ToBytes)) exMempoolTx) ∧
    exLedger exCoin.key = some ⟨90, p2pkh (toyH.ripemd160 (toyH.sha256 toySigner.pubKey))⟩ ∧
    exLedger.after (toyH.sha256 (toyH.sha256 exMempoolTx.ToBytes)) exMempoolTx exCoin.key = none := by
  refine ⟨?_, ?_, ⟨_, ?_, rfl⟩, by simp [exLedger], by decide +kernel⟩
  · intro d s h
    simp only [exVerify, Bool.and_eq_true, beq_iff_eq] at h
    refine ⟨(exUnsigned, 0), ?_, exUnsigned.Inputs.getD 0 Input.New, _, by decide +kernel, by decide +kernel, h.2⟩
    have hi : inputsOf exPay1.calls = [(exUnsigned, 0)] := by
      have hl : (List.range exUnsigned.Inputs.length) = [0] := by decide +kernel
      have hok : (applyCalls Transaction.New exPay1.calls).isOk = true := by decide +kernel
      unfold exUnsigned at hl ⊢
      unfold inputsOf
      revert hl hok
      rcases applyCalls Transaction.New exPay1.calls with r | e | _ <;> simp [Res.isOk]
    simp [hi]
  · intro c hc
    simp only [Payment.calls, exPay1, List.map_cons, List.map_nil, List.cons_append, List.nil_append, List.mem_cons, List.not_mem_nil, or_false] at hc
    rcases hc with rfl | rfl | rfl
    · exact ⟨by unfold IsTxId; decide +kernel, (isHexString_iff _).mpr (isHex_encode _), by decide +kernel⟩
    · show IsAddressLike _
      decide +kernel
    · show IsAddressLike _
      decide +kernel
  · obtain ⟨⟨a1, a2, tx, a3, a4, -⟩, a5⟩ := exMempoolTx_accepted
    have := isTx_unique a3 a5
    rw [this] at a4
    have hv : ValidTx toyH exVerify exLedger exMempoolTx → NodeAccepts toyH exVerify exLedger exMempoolTx.ToBytes (exLedger.after (toyH.sha256 (toyH.sha256 exMempoolTx.ToBytes)) exMempoolTx) :=
      fun h => ⟨a1, a2, exMempoolTx, a5, h, rfl⟩
    refine hv ⟨a4.inputs, a4.outputs, a4.distinct, ?_, a4.range, a4.funded, a4.final⟩
    intro k inp hk
    have hlen : exMempoolTx.Inputs.length = 1 := by decide +kernel
    have hk0 : k = 0 := by
      have := (List.getElem?_eq_some_iff.mp hk).1
      omega
    subst hk0
    obtain ⟨c, hc, -⟩ := a4.spends 0 inp hk
    refine ⟨⟨90, p2pkh (toyH.ripemd160 (toyH.sha256 toySigner.pubKey))⟩, ?_, ?_⟩
    · unfold exLedger at hc ⊢
      split_ifs at hc ⊢
      rfl
    · have hu : (exMempoolTx.Inputs[0]?).map (·.UnlockingScript) = some (some (unlocking (exDigest.take 9) 0x41 toySigner.pubKey)) := by decide +kernel
      rw [hk] at hu
      refine accepted_of_unlocking toyH exVerify _ 0 inp (exDigest.take 9) toySigner.pubKey 0x41 90 hk (by simpa using hu) (by decide +kernel) (by decide +kernel) (by decide) (by decide) ?_
      have hd : (exMempoolTx.Inputs[0]?).map (fun i => toyH.sha256 (toyH.sha256 (preimage (fun b => toyH.sha256 (toyH.sha256 b)) exMempoolTx 0 { i with PreviousTxSatoshis := 90 }
        (p2pkh (toyH.ripemd160 (toyH.sha256 toySigner.pubKey))) 0x41))) = some exDigest := by decide +kernel
      rw [hk, Option.map_some, Option.some.injEq] at hd
      rw [hd]
      simp [exVerify, toyVerify]

/-- With flag NONE the toy key signs input 0 of the example, for any outputs. -/
example : GoodSigner toyVerify { toySigner with SigHashFlag := 0x42 } ∧ isNone (flagOrDefault 0x42) = true ∧ Sized exMany ∧ ReadableScripts exMany ∧
    ∃ inp, exMany.Inputs[0]? = some inp ∧ inp.PreviousTxID ≠ [] ∧ inp.PreviousTxScript = some (p2pkh (toyH.ripemd160 (toyH.sha256 toySigner.pubKey))) :=
  ⟨⟨toySigner_sized, ⟨by decide, by decide⟩, toySigner_good.2.2⟩, by decide, exMany_sized, exMany_readable, _, rfl, by decide +kernel, by decide +kernel⟩

end Verif.Props
