import Verif.Spec.Fee
import Verif.Props.Ledger
/-!
# C128: a fee chosen before signing
-/
namespace Verif.Props
open Verif Spec Transaction

/-- Signatures of `lo` to `hi` bytes, and a compressed key. -/
def SizedSigner (lo hi : Nat) (is : InternalSigner) : Prop := is.pubKey.length = 33 ∧ ∀ d sig, is.sign d = .ok sig → lo ≤ sig.length ∧ sig.length ≤ hi

theorem signAll_sizes (H : HashFns) (verify : Bytes → Bytes → Bytes → Bool) (lo hi : Nat) (hhi : hi ≤ 74) (tx : Transaction) (hs : Sized tx) (hr : ReadableScripts tx) :
    ∀ (signers : List InternalSigner), (∀ is ∈ signers, GoodSigner verify is) → (∀ is ∈ signers, SizedSigner lo hi is) → ∀ t t', SameButUnlocking tx t → signWithAll H signers t = .ok t' →
      ∀ (k : Nat) inp h, tx.Inputs[k]? = some inp → inp.PreviousTxID ≠ [] → h.length = 20 → inp.PreviousTxScript = some (p2pkh h) →
        ((∃ is ∈ signers, H.ripemd160 (H.sha256 is.pubKey) = h) ∨ ∃ i, t.Inputs[k]? = some i ∧ lo + 77 ≤ inputSize i ∧ inputSize i ≤ hi + 77) →
        ∃ i, t'.Inputs[k]? = some i ∧ lo + 77 ≤ inputSize i ∧ inputSize i ≤ hi + 77
  | [], _, _, t, t', _, hok => by
    obtain rfl : t = t' := by
      have : signWithAll H [] t = .ok t := rfl
      rw [this] at hok; injection hok
    rintro k inp h hi hid hl hc (⟨is, his, -⟩ | hd)
    · cases his
    · exact hd
  | is :: signers, hg, hz, t, t', ht, hok => by
    have hgis := hg is (by simp)
    have hzis := hz is (by simp)
    have hg' : GoodSigner (fun _ _ sig => decide (lo ≤ sig.length ∧ sig.length ≤ hi)) is := by
      refine ⟨hgis.1, hgis.2.1, fun d => ?_⟩
      obtain ⟨s, e, -⟩ := hgis.2.2 d
      exact ⟨s, e, decide_eq_true (hzis.2 d s e)⟩
    obtain ⟨t1, s1, s2, s3⟩ := signAuto_good H _ is hg' t (sized_same hs ht) (readable_same ht hr)
    have hrest : signWithAll H signers t1 = .ok t' := by
      unfold signWithAll at hok ⊢
      rw [List.foldlM_cons, s1] at hok
      exact hok
    intro k inp h hi hid hl hc hd
    refine signAll_sizes H verify lo _ hhi tx hs hr signers (fun x hx => hg x (by simp [hx])) (fun x hx => hz x (by simp [hx])) t1 t' (ht.trans s2) hrest k inp h hi hid hl hc ?_
    obtain ⟨i, e1, e2, e3, e4, e5, e6⟩ := input_same_full ht k inp hi
    obtain ⟨b1, b2⟩ := s3 k i e1
    have hcode : i.PreviousTxScript = some (p2pkh h) := by rw [← e5]; exact hc
    have hid' : i.PreviousTxID ≠ [] := by rw [← e2]; exact hid
    by_cases hh : H.ripemd160 (H.sha256 is.pubKey) = h
    · right
      have hb : BeginsPayTo (H.ripemd160 (H.sha256 is.pubKey)) (p2pkh h) := by
        rw [← hh]
        obtain ⟨_, s, q1, q2⟩ := selected_p2pkh (H.ripemd160 (H.sha256 is.pubKey)) (H.ripemd160_length _) { i with PreviousTxScript := some (p2pkh (H.ripemd160 (H.sha256 is.pubKey))) } hid' rfl
        injection q1 with q1; subst q1; exact q2
      obtain ⟨sig, g1, -, g3⟩ := b2 _ hid' hcode hb
      have hsl := of_decide_eq_true g3
      refine ⟨_, g1, ?_⟩
      have hul := unlocking_length (flagOrDefault is.SigHashFlag) (show sig.length ≤ 74 by omega) (show is.pubKey.length ≤ 75 by rw [hzis.1]; omega)
      simp only [inputSize, Option.getD_some, hul, compactLen, hzis.1]
      rw [if_pos (by omega)]
      omega
    · rcases hd with ⟨x, hx, e⟩ | ⟨j, d1, d2⟩
      · left
        rcases List.mem_cons.mp hx with rfl | hx
        · exact absurd e hh
        · exact ⟨x, hx, e⟩
      · right
        have hns : ¬ Selected (H.ripemd160 (H.sha256 is.pubKey)) i := by
          rintro ⟨_, s, q1, q2⟩
          rw [hcode] at q1; injection q1 with q1; subst q1
          exact hh (beginsPayTo_p2pkh hl q2)
        rw [e1] at d1; injection d1 with d1; subst d1
        exact ⟨i, b1 hns, d2⟩

/-- C128 (a): before signing, the calls tell the size of the transaction to within the spread of the signatures, whichever of the keys sign which inputs, and exactly what the miner gets. A node that demands a fee rate takes
the transaction exactly if it accepts it and what the calls leave over pays for its bytes at the rate. -/
theorem C128_fee (H : HashFns) (verify : Bytes → Bytes → Bytes → Bool) (signers : List InternalSigner) (hg : ∀ is ∈ signers, GoodSigner verify is) (lo hi : Nat) (hhi : hi ≤ 74)
    (hz : ∀ is ∈ signers, SizedSigner lo hi is) (L : Ledger) (calls : List Call) (hc : ∀ c ∈ calls, PaymentCall L (keyHashes H signers) c) (hlen : calls.length < 2 ^ 31) :
    ∃ tx tx', applyCalls Transaction.New calls = .ok (tx, List.replicate calls.length true) ∧ signWithAll H signers tx = .ok tx' ∧
      estimate (lo + 77) calls ≤ tx'.ToBytes.length ∧ tx'.ToBytes.length ≤ estimate (hi + 77) calls ∧
      (∀ t, tx'.ToBytes.length ≤ maxTxBytes → IsTx MinCompactSize t tx'.ToBytes → valueIn L t - valueOut t = feeOf calls) ∧
      ∀ rate L', NodeRelays H verify rate L tx'.ToBytes L' ↔ NodeAccepts H verify L tx'.ToBytes L' ∧ rate * tx'.ToBytes.length ≤ 1000 * feeOf calls := by
  obtain ⟨tx, tx', h1, h2, h3, h4, -, -⟩ := C115_payment H verify signers hg L calls hc hlen
  have hb := built calls (payment_wellFormed hc)
  rw [h1] at hb
  injection hb with hb
  have htx := (Prod.mk.inj hb).1
  have hi1 : tx.Inputs = calls.flatMap Call.ins := by rw [htx]
  have ho1 : tx.Outputs = calls.flatMap Call.outs := by rw [htx]
  obtain ⟨l1, l2⟩ := ins_length calls
  have hpi := payment_inputs hc
  rw [← hi1] at hpi
  have h20 : ∀ h ∈ keyHashes H signers, h.length = 20 := by
    intro h hm
    obtain ⟨is, -, rfl⟩ := List.mem_map.mp hm
    exact H.ripemd160_length _
  have hs : Sized tx := by
    refine ⟨by rw [hi1]; omega, by rw [ho1]; omega, by rw [ho1]; exact payment_outputs hc, ?_⟩
    intro i hi s hsome
    obtain ⟨-, ⟨h, hm, h1, -⟩, -⟩ := hpi i hi
    rw [h1] at hsome
    injection hsome with hsome
    rw [← hsome]; simp [p2pkh, h20 h hm]
  have hrd : ReadableScripts tx := fun i hi hpan => by
    obtain ⟨-, ⟨h, hm, h1, -⟩, -⟩ := hpi i hi
    rw [h1, p2pkh, C14_getPublicKeyHash _ (h20 h hm)] at hpan
    cases hpan
  obtain ⟨tx2, s1, s2, -⟩ := C70_signed_accepted H verify signers hg tx hs hrd
  rw [h2] at s1; injection s1 with s1; subst s1
  have ht' := txids_same s2 fun i hi => (hpi i hi).1
  have hil : tx'.Inputs.length = tx.Inputs.length := by
    have := congrArg List.length s2.2.2.2
    simp only [List.length_map] at this
    exact this.symm
  have hsize : ∀ i ∈ tx'.Inputs, lo + 77 ≤ inputSize i ∧ inputSize i ≤ hi + 77 := by
    intro i himem
    obtain ⟨k, hk⟩ := List.mem_iff_getElem?.mp himem
    have hlt : k < tx.Inputs.length := by have := (List.getElem?_eq_some_iff.mp hk).1; omega
    obtain ⟨inp, hki⟩ : ∃ inp, tx.Inputs[k]? = some inp := ⟨_, List.getElem?_eq_getElem hlt⟩
    obtain ⟨hid, ⟨h, hm, hps, -⟩, -⟩ := hpi inp (List.mem_of_getElem? hki)
    obtain ⟨is, his, rfl⟩ := List.mem_map.mp hm
    obtain ⟨i', e1, e2⟩ := signAll_sizes H verify lo hi hhi tx hs hrd signers hg hz tx tx' (SameButUnlocking.refl tx) h2 k inp _ hki
      (by intro e; have := hid.1; rw [e] at this; simp at this) (H.ripemd160_length _) hps (.inl ⟨is, his, rfl⟩)
    rw [hk] at e1; injection e1 with e1; subst e1
    exact e2
  have hnin : (calls.flatMap Call.spent).length = tx'.Inputs.length := by rw [← h4, List.length_map]
  have htot := toBytes_size tx' ht' (fun i himem => by have := (hsize i himem).2; simp only [inputSize] at this; omega) (by rw [h3]; exact payment_outputs hc)
    (by rw [hil, hi1]; omega) (by rw [h3]; omega)
  have hsum := sum_bounds tx'.Inputs inputSize _ _ hsize
  have hfun : inputSize = fun i : Input => 40 + compactLen (i.UnlockingScript.getD []).length + (i.UnlockingScript.getD []).length := rfl
  rw [hfun] at hsum
  have hfo : outputSize = fun o : Output => 8 + compactLen o.LockingScript.length + o.LockingScript.length := rfl
  rw [h3] at htot
  have hmx : maxTxBytes < 2 ^ 62 := by decide
  have hwo := wire_outpoints tx' ht'
  have hvi : valueIn L (wireTx tx') = (calls.map Call.amountIn).sum := by
    rw [valueIn_eq, hwo, h4, payment_valueIn L _ calls hc]
  have hvo : valueOut (wireTx tx') = (calls.map Call.amountOut).sum := by
    show (tx'.Outputs.map (·.Satoshis.toNat)).sum = _
    rw [h3, payment_valueOut]
  have hparse : ∀ t, tx'.ToBytes.length ≤ maxTxBytes → IsTx MinCompactSize t tx'.ToBytes → valueIn L t - valueOut t = feeOf calls := by
    intro t hl ht
    have e1 := (C35_accepts_iff tx'.ToBytes [] (by simp; omega) t).mpr (isTx_mono ht)
    have e2 := C33_parse_serialise tx' ht' [] (by simp; omega)
    rw [e1] at e2
    injection e2 with e2
    subst e2
    rw [hvi, hvo]; rfl
  refine ⟨tx, tx', h1, h2, ?_, ?_, hparse, fun rate L' => ⟨?_, ?_⟩⟩
  · rw [estimate, hnin, hfo]; omega
  · rw [estimate, hnin, hfo]; omega
  · rintro ⟨ha, t, ht, hfee⟩
    rw [hparse t ha.1 ht] at hfee
    exact ⟨ha, hfee⟩
  · rintro ⟨ha, hfee⟩
    have hl := ha.1
    exact ⟨ha, wireTx tx', tx_toBytes_isTx tx' ht' (by omega), by rw [hvi, hvo]; exact hfee⟩

/-- C128 (b): so a payment that can be made, and leaves enough for the estimate with the longest signatures, is taken; one that leaves too little even for the shortest is not. -/
theorem C128_enough (H : HashFns) (verify : Bytes → Bytes → Bytes → Bool) (signers : List InternalSigner) (hg : ∀ is ∈ signers, GoodSigner verify is) (lo hi : Nat) (hhi : hi ≤ 74)
    (hz : ∀ is ∈ signers, SizedSigner lo hi is) (L : Ledger) (calls : List Call) (hc : ∀ c ∈ calls, PaymentCall L (keyHashes H signers) c) (hlen : calls.length < 2 ^ 31) (rate : Nat) :
    ∃ tx tx', applyCalls Transaction.New calls = .ok (tx, List.replicate calls.length true) ∧ signWithAll H signers tx = .ok tx' ∧
      (Payable calls → estimate (hi + 77) calls ≤ maxTxBytes → (∀ n < 2 ^ 32, L (H.sha256 (H.sha256 tx'.ToBytes) ++ leBytes 4 n) = none) →
        rate * estimate (hi + 77) calls ≤ 1000 * feeOf calls → ∃ L', NodeRelays H verify rate L tx'.ToBytes L') ∧
      (1000 * feeOf calls < rate * estimate (lo + 77) calls → ∀ L', ¬ NodeRelays H verify rate L tx'.ToBytes L') := by
  obtain ⟨tx, tx', h1, h2, h3, h4, hparse, h5⟩ := C128_fee H verify signers hg lo hi hhi hz L calls hc hlen
  obtain ⟨tx2, tx2', g1, g2, -, -, g5, -⟩ := C115_payment H verify signers hg L calls hc hlen
  rw [h1] at g1; injection g1 with g1; obtain rfl := (Prod.mk.inj g1).1
  rw [h2] at g2; injection g2 with g2; subst g2
  refine ⟨tx, tx', h1, h2, fun hp hb hf hr => ?_, fun hlt L' hn => ?_⟩
  · obtain ⟨L', hL'⟩ := g5.mpr ⟨hp, by omega, hf⟩
    exact ⟨L', (h5 rate L').mpr ⟨hL', le_trans (Nat.mul_le_mul_left rate h4) hr⟩⟩
  · have := ((h5 rate L').mp hn).2
    have := Nat.mul_le_mul_left rate h3
    omega

theorem payment_outSizes (pay : List (Bytes × UInt64)) (h : ∀ a ∈ pay, IsAddressLike a.1) :
    ((pay.flatMap fun a => Call.outs (Call.payTo a.1 a.2)).map outputSize).sum = pay.length * 34 := by
  induction pay with
  | nil => rfl
  | cons a as ih =>
    have ha := (h a (by simp)).1
    rw [List.flatMap_cons, List.map_append, List.sum_append, ih fun x hx => h x (by simp [hx]), List.length_cons]
    have : ((Call.outs (Call.payTo a.1 a.2)).map outputSize).sum = 34 := by
      simp only [Call.outs, List.map_cons, List.map_nil, List.sum_cons, List.sum_nil, outputSize]
      have : ([0x76, 0xa9, 0x14] ++ ((base58Decode a.1).drop 1).take 20 ++ [0x88, 0xac] : Bytes).length = 25 := by simp [ha]
      rw [this]; rfl
    omega

theorem estimate_payment {L : Ledger} {hashes : List Bytes} {W : List WalletCoin} (hB : Backed hashes W L) {p : Payment} (hp : Affordable W p) (per : Nat) :
    estimate per p.calls = paymentSize per p.spend.length p.pay.length := by
  obtain ⟨-, c2, -, -, c5, -⟩ := payment_calls hB hp
  have e : p.calls.flatMap Call.outs = p.pay.flatMap fun a => Call.outs (Call.payTo a.1 a.2) := by
    simp only [Payment.calls, List.flatMap_append, List.flatMap_map]
    have : p.spend.flatMap (fun w => Call.outs (Call.fromUtxo w.txid w.vout w.scriptHex w.sats)) = [] := by simp [Call.outs]
    rw [this, List.nil_append]
  rw [estimate, c2, c5, List.length_map, e, payment_outSizes p.pay hp.pay.2, paymentSize]

/-- C128 (c), change: a wallet that spends some of its coins, pays some addresses, and sends to itself what is left after a fee for the estimated size (with signatures of at most `hi` bytes), makes a payment that a node
takes at the rate; and the fee is too high by no more than the spread of the signatures and one satoshi of rounding. -/
theorem C128_change (H : HashFns) (verify : Bytes → Bytes → Bytes → Bool) (signers : List InternalSigner) (hg : ∀ is ∈ signers, GoodSigner verify is) (lo hi : Nat) (hlh : lo ≤ hi) (hhi : hi ≤ 74)
    (hz : ∀ is ∈ signers, SizedSigner lo hi is) {L : Ledger} {W : List WalletCoin} (hB : Backed (keyHashes H signers) W L) (rate : Nat) (p : Payment) (a : Bytes) (ha : IsAddressLike a)
    (hspend : p.spend ≠ [] ∧ p.spend.Nodup ∧ ∀ w ∈ p.spend, w ∈ W) (hpay : ∀ x ∈ p.pay, IsAddressLike x.1) (hlen : p.spend.length + p.pay.length + 1 < 2 ^ 31)
    (hrange : (p.spend.map (·.sats.toNat)).sum ≤ maxMoney) (fee : Nat) (hfee : fee = feeFor rate (paymentSize (hi + 77) p.spend.length (p.pay.length + 1)))
    (hfund : (p.pay.map (·.2.toNat)).sum + fee ≤ (p.spend.map (·.sats.toNat)).sum) (hmax : paymentSize (hi + 77) p.spend.length (p.pay.length + 1) ≤ maxTxBytes) :
    ∃ W' b, walletStep H signers W (.pay (p.withChange a fee)) = .ok (W', b) ∧
      ((∀ n < 2 ^ 32, L (H.sha256 (H.sha256 b) ++ leBytes 4 n) = none) → ∃ L', NodeRelays H verify rate L b L' ∧ Backed (keyHashes H signers) W' L') ∧
      (∀ tx, IsTx MinCompactSize tx b → valueIn L tx - valueOut tx = fee) ∧
      1000 * fee ≤ rate * b.length + rate * (p.spend.length * (hi - lo)) + 999 := by
  set change := (p.spend.map (·.sats.toNat)).sum - (p.pay.map (·.2.toNat)).sum - fee with hch
  have hmm : maxMoney < 2 ^ 64 := by decide
  have hchange : (UInt64.ofNat change).toNat = change := by
    rw [UInt64.toNat_ofNat']; exact Nat.mod_eq_of_lt (by omega)
  have hout : ((p.withChange a fee).pay.map (·.2.toNat)).sum = (p.pay.map (·.2.toNat)).sum + change := by
    simp only [Payment.withChange, List.map_append, List.sum_append, List.map_cons, List.map_nil, List.sum_cons, List.sum_nil, Nat.add_zero]
    rw [← hch, hchange]
  have hpl : (p.withChange a fee).pay.length = p.pay.length + 1 := by simp [Payment.withChange]
  have hA : Affordable W (p.withChange a fee) := by
    refine ⟨hspend, ⟨by simp [Payment.withChange], fun x hx => ?_⟩, by rw [hpl]; show p.spend.length + _ < _; omega, hrange, ?_⟩
    · rcases List.mem_append.mp hx with hx | hx
      · exact hpay x hx
      · rw [List.mem_singleton.mp hx]; exact ha
    · rw [hout]; show _ ≤ (p.spend.map (·.sats.toNat)).sum; omega
  obtain ⟨c1, -, c3, c4, -, -⟩ := payment_calls hB hA
  have hcl : (p.withChange a fee).calls.length < 2 ^ 31 := by
    simp only [Payment.calls, List.length_append, List.length_map, hpl]
    show p.spend.length + _ < _; omega
  obtain ⟨tx, tx', h1, h2, h3, h4, hparse, h5⟩ := C128_fee H verify signers hg lo hi hhi hz L _ c1 hcl
  obtain ⟨W', b, w1, w2⟩ := wallet_pay H verify signers hg hB hA
  have hb : b = tx'.ToBytes := by
    simp only [walletStep, h1, Res.ok_bind, h2] at w1
    change Res.ok _ = Res.ok _ at w1
    injection w1 with w1
    exact (Prod.mk.inj w1).2.symm
  subst hb
  rw [estimate_payment hB hA, hpl] at h3 h4
  change paymentSize (lo + 77) p.spend.length _ ≤ _ at h3
  change _ ≤ paymentSize (hi + 77) p.spend.length _ at h4
  have hf : feeOf (p.withChange a fee).calls = fee := by
    rw [feeOf, c3, c4, hout]
    show (p.spend.map (·.sats.toNat)).sum - _ = _
    omega
  have hfe : rate * paymentSize (hi + 77) p.spend.length (p.pay.length + 1) ≤ 1000 * fee ∧ 1000 * fee ≤ rate * paymentSize (hi + 77) p.spend.length (p.pay.length + 1) + 999 := by
    rw [hfee, feeFor]; omega
  have hspread : paymentSize (hi + 77) p.spend.length (p.pay.length + 1) = paymentSize (lo + 77) p.spend.length (p.pay.length + 1) + p.spend.length * (hi - lo) := by
    have : p.spend.length * (hi + 77) = p.spend.length * (lo + 77) + p.spend.length * (hi - lo) := by rw [← Nat.mul_add]; congr 1; omega
    simp only [paymentSize]; omega
  refine ⟨W', _, w1, fun hfr => ?_, fun t ht => ?_, ?_⟩
  · obtain ⟨L', k1, k2⟩ := w2 (by omega) hfr
    refine ⟨L', (h5 rate L').mpr ⟨k1, ?_⟩, k2⟩
    rw [hf]
    exact le_trans (Nat.mul_le_mul_left rate h4) hfe.1
  · rw [hparse t (by omega) ht]; exact hf
  · have e := Nat.mul_le_mul_left rate h3
    have e2 := hfe.2
    rw [hspread, Nat.mul_add] at e2
    omega

/-! ## The hypotheses are met: a wallet with one coin of 1000 satoshis pays 300, at half a satoshi per byte -/

/-- A toy key: signatures of 71 bytes. -/
def feeSigner : InternalSigner := { sign := fun _ => .ok (List.replicate 71 7), pubKey := 2 :: List.replicate 32 9, SigHashFlag := 0x41 }

/-- The wallet's coin. -/
def feeCoin : WalletCoin := ⟨List.replicate 64 49, 1, hexEncode (p2pkh (toyH.ripemd160 (toyH.sha256 feeSigner.pubKey))), 1000⟩

/-- The node knows that coin only. -/
def feeLedger : Ledger := fun k => if k = feeCoin.key then some ⟨1000, p2pkh (toyH.ripemd160 (toyH.sha256 feeSigner.pubKey))⟩ else none

/-- 300 to somebody. -/
def feePay : Payment := ⟨[feeCoin], [((Address.NewFromPublicKeyHash toyH (List.replicate 20 7) true).AddressString, 300)]⟩

example : ∃ W' b L', walletStep toyH [feeSigner] [feeCoin] (.pay (feePay.withChange (Address.NewFromPublicKey toyH feeSigner.pubKey true).AddressString 114)) = .ok (W', b) ∧
    b.length = 226 ∧ NodeRelays toyH (fun _ _ sig => sig.length == 71) 500 feeLedger b L' ∧ W'.map (·.sats) = [586] := by
  have hB : Backed (keyHashes toyH [feeSigner]) [feeCoin] feeLedger := by
    refine ⟨by simp, fun w hw => ?_⟩
    rw [List.mem_singleton.mp hw]
    exact ⟨by unfold IsTxId; decide +kernel, _, List.mem_map.mpr ⟨feeSigner, by simp, rfl⟩, (isHexString_iff _).mpr (isHex_encode _), hexDecodeIgnore_encode _, by simp [feeLedger, feeCoin]⟩
  have hg : ∀ is ∈ [feeSigner], GoodSigner (fun _ _ sig => sig.length == 71) is := by
    intro is his
    rw [List.mem_singleton.mp his]
    refine ⟨⟨by decide, fun d s h => ?_⟩, by decide, fun d => ⟨_, rfl, by simp⟩⟩
    obtain rfl : List.replicate 71 7 = s := by simpa [feeSigner] using h
    simp
  have hz : ∀ is ∈ [feeSigner], SizedSigner 70 72 is := by
    intro is his
    rw [List.mem_singleton.mp his]
    refine ⟨by decide, fun d s h => ?_⟩
    obtain rfl : List.replicate 71 7 = s := by simpa [feeSigner] using h
    simp
  obtain ⟨W', b, h1, h2, -, -⟩ := C128_change toyH _ [feeSigner] hg 70 72 (by omega) (by omega) hz hB 500 feePay (Address.NewFromPublicKey toyH feeSigner.pubKey true).AddressString
    (by decide +kernel) ⟨by simp [feePay], by simp [feePay], by simp [feePay]⟩ (by decide +kernel) (by decide +kernel) (by decide +kernel) 114 (by decide +kernel) (by decide +kernel) (by decide +kernel)
  have hk : feeCoin.key = List.replicate 32 17 ++ leBytes 4 1 := by decide +kernel
  have hf : (match walletStep toyH [feeSigner] [feeCoin] (.pay (feePay.withChange (Address.NewFromPublicKey toyH feeSigner.pubKey true).AddressString 114)) with
      | .ok r => decide (r.2.length = 226 ∧ toyH.sha256 (toyH.sha256 r.2) ≠ List.replicate 32 17 ∧ r.1.map (·.sats) = [586])
      | _ => false) = true := by decide +kernel
  rw [h1] at hf
  obtain ⟨g1, g2, g3⟩ := of_decide_eq_true hf
  obtain ⟨L', k1, -⟩ := h2 fun n _ => by
    unfold feeLedger
    rw [if_neg]
    rw [hk]
    intro e
    exact g2 (List.append_inj_left e (by simp [toyH.sha256_length]))
  exact ⟨W', b, L', h1, g1, k1, g3⟩

/-- The size is what the estimate says for signatures of 71 bytes, and the fee of 114 satoshis is that for 72, rounded up. -/
example : paymentSize (71 + 77) 1 2 = 226 ∧ feeFor 500 (paymentSize (72 + 77) 1 2) = 114 := by decide

end Verif.Props
