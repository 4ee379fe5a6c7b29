import Verif.Spec.Notary
import Verif.Props.Publish
import Verif.Props.Spv
/-!
# C143: a record that a document existed
-/
namespace Verif.Props
open Verif Spec Transaction

/-- Who checks a certificate has the header of a block, the number of levels of its tree, and the document. The certificate is the bytes of a transaction, an index and branches. -/
def certified (H : HashFns) (header : Bytes) (levels : Nat) (b spare : Bytes) (idx : Int) (branches : List Bytes) (doc : Bytes) : Res Bool := do
  let tx ← NewFromBytes ⟨b, spare⟩
  let items ← readData b spare
  let root ← MerkleRootFromBranches H (tx.GetTxID H) idx branches
  pure (root == hexEncode ((header.drop 36).take 32).reverse && branches.length == levels && branches.all (fun x => decide (IsTxId x)) && items.any fun ps => ps.contains (H.sha256 doc))

/-- The header of a block with these transactions. -/
def headerOf (H : HashFns) (version : UInt32) (prev time bits nonce cb : Bytes) (bodies : List Bytes) : Bytes :=
  BuildBlockHeader version prev (BuildMerkleRootFromCoinbase H (internal (display (dsha H cb))) (GetMerkleBranches H ((cb :: bodies).map fun b => display (dsha H b)))) time bits nonce

theorem display_isTxId (H : HashFns) (b : Bytes) : IsTxId (display (dsha H b)) :=
  isTxId_iff.mpr ⟨isHex_encode _, by simp [display, dsha, H.sha256_length]⟩

theorem certified_true {H : HashFns} {header : Bytes} {levels : Nat} {b spare : Bytes} {idx : Int} {branches : List Bytes} {doc : Bytes} :
    certified H header levels b spare idx branches doc = .ok true ↔ ∃ tx items, NewFromBytes ⟨b, spare⟩ = .ok tx ∧ readData b spare = .ok items ∧
      MerkleRootFromBranches H (tx.GetTxID H) idx branches = .ok (hexEncode ((header.drop 36).take 32).reverse) ∧ branches.length = levels ∧ (∀ x ∈ branches, IsTxId x) ∧
      ∃ ps ∈ items, H.sha256 doc ∈ ps := by
  unfold certified
  constructor
  · intro h
    rcases h1 : NewFromBytes ⟨b, spare⟩ with tx | e | _ <;> rw [h1] at h <;> try cases h
    rcases h2 : readData b spare with items | e | _ <;> rw [h2] at h <;> try cases h
    simp only [Res.ok_bind] at h
    rcases h3 : MerkleRootFromBranches H (tx.GetTxID H) idx branches with root | e | _ <;> rw [h3] at h <;> try cases h
    injection h with h
    simp only [Bool.and_eq_true, beq_iff_eq, List.all_eq_true, List.any_eq_true, decide_eq_true_eq, List.contains_iff_mem] at h
    obtain ⟨⟨⟨g1, g2⟩, g3⟩, g4⟩ := h
    exact ⟨tx, items, rfl, rfl, by rw [h3, g1], g2, g3, g4⟩
  · rintro ⟨tx, items, h1, h2, h3, h4, h5, h6⟩
    rw [h1, h2]
    simp only [Res.ok_bind]
    rw [h3, Res.ok_bind]
    have : (hexEncode ((header.drop 36).take 32).reverse == hexEncode ((header.drop 36).take 32).reverse && branches.length == levels && branches.all (fun x => decide (IsTxId x)) &&
        items.any fun ps => ps.contains (H.sha256 doc)) = true := by
      simp only [Bool.and_eq_true, beq_iff_eq, List.all_eq_true, List.any_eq_true, decide_eq_true_eq, List.contains_iff_mem]
      exact ⟨⟨⟨trivial, h4⟩, h5⟩, h6⟩
    rw [this]; rfl

theorem readData_items {b spare : Bytes} {items : List (List Bytes)} (h : readData b spare = .ok items) {tx : Transaction} (ht : NewFromBytes ⟨b, spare⟩ = .ok tx) :
    ∀ ps ∈ items, ∃ o ∈ tx.Outputs, DataScript o.LockingScript ∧ PartsOf o.LockingScript ps := by
  unfold readData at h
  rw [ht, Res.ok_bind] at h
  rcases mapM_dataOf tx.Outputs with ⟨-, e⟩ | ⟨-, rs, e, hf⟩ <;> rw [e] at h
  · cases h
  injection h with h
  subst h
  clear e
  revert hf
  generalize tx.Outputs = os
  intro hf ps hps
  obtain ⟨r, hr, e'⟩ := List.mem_filterMap.mp hps
  simp only [id] at e'
  subst e'
  induction hf with
  | nil => cases hr
  | cons hd _ ih =>
    rcases List.mem_cons.mp hr with rfl | hr
    · exact ⟨_, List.mem_cons_self, ((dataOf_spec _).2.2 ps).mp hd⟩
    · obtain ⟨o, ho, h⟩ := ih (List.mem_filterMap.mpr ⟨_, hr, rfl⟩) hr
      exact ⟨o, List.mem_cons_of_mem _ ho, h⟩

/-- Two different strings with the same hash are at hand: one that the check of the certificate hashes, and one that is hashed for the block. -/
def CertificateCollision (H : HashFns) (cb : Bytes) (bodies : List Bytes) (b : Bytes) (idx : Int) (branches : List Bytes) : Prop :=
  ∃ tx, IsTx CompactSize tx b ∧ ((∃ x ∈ cb :: bodies, x ≠ tx.ToBytes ∧ dsha H x = dsha H tx.ToBytes) ∨
    ∃ a ∈ proofStrings (dsha H) (dsha H tx.ToBytes) (idx % 2 ^ branches.length).toNat (branches.map internal),
      ∃ c, Hashed (dsha H) ((cb :: bodies).map (dsha H)) c ∧ a ≠ c ∧ dsha H a = dsha H c)

/-- C143 (sound): a block has been made from any transactions. Whatever certificate passes for a document, its hash is recorded in one of the transactions of the block, or a collision is at hand. -/
theorem C143_sound (H : HashFns) (version : UInt32) (prev time bits nonce cb : Bytes) (bodies : List Bytes) (hp : IsTxId prev) (htime : time.length = 4) (hbits : bits.length = 4) (hn : nonce.length = 4)
    (b spare : Bytes) (hcap : b.length + spare.length < 2 ^ 62) (idx : Int) (branches : List Bytes) (doc : Bytes)
    (h : certified H (headerOf H version prev time bits nonce cb bodies) (Nat.clog 2 (cb :: bodies).length) b spare idx branches doc = .ok true) :
    Recorded (cb :: bodies) (H.sha256 doc) ∨ CertificateCollision H cb bodies b idx branches := by
  obtain ⟨tx, items, h1, h2, h3, h4, h5, ps, h6, h7⟩ := certified_true.mp h
  have htx := (C35_accepts_iff b spare hcap tx).mp h1
  obtain ⟨hw, hids⟩ := isTx_wire htx
  have hid : tx.GetTxID H = display (dsha H tx.ToBytes) := (C38_txid_form H tx).1
  have hC := (C125_header H (display (dsha H cb)) (bodies.map fun b => display (dsha H b)) (by
    intro t ht
    rcases List.mem_cons.mp ht with rfl | ht
    · exact display_isTxId H cb
    · obtain ⟨x, -, rfl⟩ := List.mem_map.mp ht
      exact display_isTxId H x) version prev time bits nonce hp htime hbits hn).2 (tx.GetTxID H) (by rw [hid]; exact display_isTxId H _) idx branches (by rw [h4]; simp) h5 h3
  rcases hC with ⟨t', ht', e⟩ | ⟨a, ha, c, hc, hne, he⟩
  · rw [← List.map_cons (f := fun b => display (dsha H b))] at ht'
    obtain ⟨x, hx, rfl⟩ := List.mem_map.mp ht'
    have e1 : dsha H x = dsha H tx.ToBytes := by
      have l : ∀ y, (display (dsha H y)).map lowerChar = display (dsha H y) := fun y => by
        unfold display
        rw [← hexEncode_decode (isHex_encode _), hexDecodeIgnore_encode]
      rw [hid, l, l] at e
      have := congrArg internal e
      rwa [internal_display, internal_display] at this
    by_cases hxe : x = tx.ToBytes
    · left
      obtain ⟨o, ho, hd, hparts⟩ := readData_items h2 h1 ps h6
      refine ⟨x, hx, tx, ?_, o, ho, hd, ps, hparts, h7⟩
      rw [hxe]
      have := tx_toBytes_isTx tx hids (by have := (isTx_length tx b htx).1; omega)
      rwa [hw] at this
    · exact .inr ⟨tx, htx, .inl ⟨x, hx, hxe, e1⟩⟩
  · right
    refine ⟨tx, htx, .inr ⟨a, ?_, c, ?_, hne, he⟩⟩
    · rw [hid, internal_display] at ha
      exact ha
    · rw [← List.map_cons (f := fun b => display (dsha H b)), List.map_map] at hc
      have e2 : (cb :: bodies).map (internal ∘ fun b => display (dsha H b)) = (cb :: bodies).map (dsha H) := List.map_congr_left fun x _ => internal_display _
      rw [e2] at hc
      exact hc

/-- C143 (one document): if what is recorded in the block are the hashes of the documents in `docs` (and items of other lengths), a certificate passes only for these documents, or a collision is at hand. -/
theorem C143_document (H : HashFns) (version : UInt32) (prev time bits nonce cb : Bytes) (bodies : List Bytes) (hp : IsTxId prev) (htime : time.length = 4) (hbits : bits.length = 4) (hn : nonce.length = 4)
    (docs : List Bytes) (hdocs : ∀ part : Bytes, part.length = 32 → Recorded (cb :: bodies) part → ∃ d ∈ docs, H.sha256 d = part)
    (b spare : Bytes) (hcap : b.length + spare.length < 2 ^ 62) (idx : Int) (branches : List Bytes) (doc : Bytes)
    (h : certified H (headerOf H version prev time bits nonce cb bodies) (Nat.clog 2 (cb :: bodies).length) b spare idx branches doc = .ok true) :
    doc ∈ docs ∨ (∃ d ∈ docs, d ≠ doc ∧ H.sha256 d = H.sha256 doc) ∨ CertificateCollision H cb bodies b idx branches := by
  rcases C143_sound H version prev time bits nonce cb bodies hp htime hbits hn b spare hcap idx branches doc h with hr | hc
  · obtain ⟨d, hd, e⟩ := hdocs _ (H.sha256_length _) hr
    by_cases hdoc : d = doc
    · exact .inl (hdoc ▸ hd)
    · exact .inr (.inl ⟨d, hd, hdoc, e⟩)
  · exact .inr (.inr hc)

/-- Reading back what is written. -/
theorem toBytes_wireTx (tx : Transaction) (ht : ∀ i ∈ tx.Inputs, IsTxId i.PreviousTxID) (hl : tx.ToBytes.length < 2 ^ 62) : (wireTx tx).ToBytes = tx.ToBytes :=
  (C34_serialise_parse tx.ToBytes [] (by simpa using hl) _ (C33_parse_serialise tx ht [] (by simpa using hl))).1.mpr (tx_toBytes_isTx tx ht hl)

theorem payment_txids (H : HashFns) (verify : Bytes → Bytes → Bytes → Bool) (signers : List InternalSigner) (hg : ∀ is ∈ signers, GoodSigner verify is) (L : Ledger) (calls : List Call)
    (hc : ∀ c ∈ calls, PaymentCall L (keyHashes H signers) c) (hlen : calls.length < 2 ^ 31) (tx tx' : Transaction) (oks : List Bool) (h1 : applyCalls Transaction.New calls = .ok (tx, oks))
    (h2 : signWithAll H signers tx = .ok tx') : ∀ i ∈ tx'.Inputs, IsTxId i.PreviousTxID := by
  have hb := built calls (payment_wellFormed hc)
  rw [h1] at hb
  injection hb with hb
  have htx := (Prod.mk.inj hb).1
  have hi1 : tx.Inputs = calls.flatMap Call.ins := by rw [htx]
  have ho1 : tx.Outputs = calls.flatMap Call.outs := by rw [htx]
  obtain ⟨l1, l2⟩ := ins_length calls
  have hpi := payment_inputs hc
  rw [← hi1] at hpi
  have h20 : ∀ h ∈ keyHashes H signers, h.length = 20 := by
    intro h hm
    obtain ⟨is, -, rfl⟩ := List.mem_map.mp hm
    exact H.ripemd160_length _
  have hs : Sized tx := by
    refine ⟨by rw [hi1]; omega, by rw [ho1]; omega, by rw [ho1]; exact payment_outputs hc, ?_⟩
    intro i hi s hsome
    obtain ⟨-, ⟨h, hm, h1, -⟩, -⟩ := hpi i hi
    rw [h1] at hsome
    injection hsome with hsome
    rw [← hsome]; simp [p2pkh, h20 h hm]
  have hrd : ReadableScripts tx := fun i hi hpan => by
    obtain ⟨-, ⟨h, hm, h1, -⟩, -⟩ := hpi i hi
    rw [h1, p2pkh, C14_getPublicKeyHash _ (h20 h hm)] at hpan
    cases hpan
  obtain ⟨tx2, s1, s2, -⟩ := C70_signed_accepted H verify signers hg tx hs hrd
  rw [h2] at s1; injection s1 with s1; subst s1
  exact txids_same s2 fun i hi => (hpi i hi).1

/-- C143 (complete): somebody publishes the hash of a document (and anything else) with a payment, as in C131; a node accepts the signed transaction exactly if the payment can be made. In whatever block it
is recorded, there is an index and there are branches with which its bytes are a certificate for the document. -/
theorem C143_record (H : HashFns) (verify : Bytes → Bytes → Bytes → Bool) (signers : List InternalSigner) (hg : ∀ is ∈ signers, GoodSigner verify is) (L : Ledger) (steps : List (Call ⊕ List Bytes))
    (hs : ∀ s ∈ steps, PublishStep L (keyHashes H signers) s) (hlen : steps.length < 2 ^ 31)
    (hsz : ∀ d, Sum.inr d ∈ steps → ∀ o, Output.NewOpReturnParts d = .ok o → o.LockingScript.length < 2 ^ 64) :
    ∃ calls tx tx', publishCalls steps = .ok calls ∧ applyCalls Transaction.New calls = .ok (tx, List.replicate calls.length true) ∧ signWithAll H signers tx = .ok tx' ∧
      ((∃ L', NodeAccepts H verify L tx'.ToBytes L') ↔
        Payable calls ∧ tx'.ToBytes.length ≤ maxTxBytes ∧ ∀ n < 2 ^ 32, L (H.sha256 (H.sha256 tx'.ToBytes) ++ leBytes 4 n) = none) ∧
      ∀ doc d, Sum.inr d ∈ steps → H.sha256 doc ∈ d →
        ∀ (version : UInt32) (prev time bits nonce cb : Bytes) (bodies : List Bytes), IsTxId prev → time.length = 4 → bits.length = 4 → nonce.length = 4 → tx'.ToBytes ∈ bodies →
          ∃ (idx : Int) (branches : List Bytes), ∀ spare : Bytes, tx'.ToBytes.length + spare.length < 2 ^ 62 →
            certified H (headerOf H version prev time bits nonce cb bodies) (Nat.clog 2 (cb :: bodies).length) tx'.ToBytes spare idx branches doc = .ok true := by
  obtain ⟨calls, tx, tx', h1, h2, h3, h4, h5⟩ := C131_publish H verify signers hg L steps hs hlen hsz
  refine ⟨calls, tx, tx', h1, h2, h3, h4, ?_⟩
  intro doc d hd hmem version prev time bits nonce cb bodies hp htime hbits hn hin
  obtain ⟨calls', e1, e2, hpay, -⟩ := publish_calls steps hs hsz
  rw [h1] at e1; injection e1 with e1; subst e1
  have hlen' : calls.length < 2 ^ 31 := by omega
  obtain ⟨k, bs, b1, b2, b3⟩ := (C125_header H (display (dsha H cb)) (bodies.map fun b => display (dsha H b)) (by
    intro t ht
    rcases List.mem_cons.mp ht with rfl | ht
    · exact display_isTxId H cb
    · obtain ⟨x, -, rfl⟩ := List.mem_map.mp ht
      exact display_isTxId H x) version prev time bits nonce hp htime hbits hn).1 (display (dsha H tx'.ToBytes)) (List.mem_cons_of_mem _ (List.mem_map.mpr ⟨_, hin, rfl⟩))
  refine ⟨(k : Int), bs, fun spare hcap => ?_⟩
  have hparse := payment_parses H verify signers hg L calls hpay hlen' tx tx' _ h2 h3 spare hcap
  refine certified_true.mpr ⟨_, _, hparse, h5 spare hcap, ?_, by rw [b1]; simp, b2, publishedParts d, ?_, ?_⟩
  · rw [(C38_txid_form H (wireTx tx')).1, toBytes_wireTx tx' (payment_txids H verify signers hg L calls hpay hlen' tx tx' _ h2 h3) (by omega)]
    exact b3
  · exact List.mem_filterMap.mpr ⟨_, hd, rfl⟩
  · unfold publishedParts
    refine List.mem_cons_of_mem _ (List.mem_cons_of_mem _ (List.mem_map.mpr ⟨_, hmem, ?_⟩))
    rw [if_neg]
    intro e
    have := congrArg List.length e
    rw [H.sha256_length] at this
    cases this

/-- C143 (violated without the number of levels): who checks as many branches as the certificate has accepts, when a transaction of 64 bytes is in the block, every transaction whose hash is the second half
of these bytes, though it is in no block. -/
theorem C143_levels_violated (H : HashFns) (version : UInt32) (prev time bits nonce cb : Bytes) (bodies : List Bytes) (hp : IsTxId prev) (htime : time.length = 4) (hbits : bits.length = 4) (hn : nonce.length = 4)
    (T : Transaction) (h64 : T.ToBytes.length = 64) (hT : T.ToBytes ∈ bodies) (F : Transaction) (b : Bytes) (hF : IsTx MinCompactSize F b) (hb : T.ToBytes.drop 32 = dsha H b) (spare : Bytes)
    (hcap : b.length + spare.length < 2 ^ 62) (items : List (List Bytes)) (hitems : readData b spare = .ok items) (doc : Bytes) (hdoc : ∃ ps ∈ items, H.sha256 doc ∈ ps) :
    ∃ (idx : Int) (branches : List Bytes), certified H (headerOf H version prev time bits nonce cb bodies) branches.length b spare idx branches doc = .ok true := by
  have hparse := (C35_accepts_iff b spare hcap F).mpr (isTx_mono hF)
  obtain ⟨k, bs, b1, b2, b3⟩ := (C125_header H (display (dsha H cb)) (bodies.map fun b => display (dsha H b)) (by
    intro t ht
    rcases List.mem_cons.mp ht with rfl | ht
    · exact display_isTxId H cb
    · obtain ⟨x, -, rfl⟩ := List.mem_map.mp ht
      exact display_isTxId H x) version prev time bits nonce hp htime hbits hn).1 (display (dsha H T.ToBytes)) (List.mem_cons_of_mem _ (List.mem_map.mpr ⟨_, hT, rfl⟩))
  have hbs : ∀ x ∈ bs, IsHex x := fun x hx => (isTxId_iff.mp (b2 x hx)).1
  have hk : k < 2 ^ bs.length := by
    rw [merkleRootFromBranches_eq H (display (dsha H T.ToBytes)) _ _ (isHex_encode _) hbs] at b3
    by_contra hge
    have : ((k : Int) / 2 ^ bs.length > 0) := by
      have : ((2 ^ bs.length : Nat) : Int) ≤ (k : Int) := by exact_mod_cast Nat.le_of_not_lt hge
      push_cast at this
      exact Int.le_ediv_of_mul_le (by positivity) (by omega)
    rw [if_pos this] at b3
    cases b3
  obtain ⟨-, a2, a3, -⟩ := C125_half_transaction H T h64 bs hbs k hk
  refine ⟨((2 * k + 1 : Nat) : Int), display (T.ToBytes.take 32) :: bs, certified_true.mpr ⟨F, items, hparse, hitems, ?_, rfl, ?_, hdoc⟩⟩
  · have hbF : F.ToBytes = b := (C34_serialise_parse b spare hcap F hparse).1.mpr hF
    have hid : F.GetTxID H = display (T.ToBytes.drop 32) := by rw [(C38_txid_form H F).1, hbF, hb]; rfl
    rw [hid, a2, (C38_txid_form H T).1]
    exact b3
  · intro x hx
    rcases List.mem_cons.mp hx with rfl | hx
    · exact a3
    · exact b2 x hx

/-! ## Examples -/

/-- The document. -/
def exDoc : Bytes := [0x68, 0x69]

/-- A coin is spent, the hash of the document is published, and the rest is paid to an address. -/
def exNotary : List (Call ⊕ List Bytes) :=
  [.inl (.fromUtxo exCoin.txid exCoin.vout exCoin.scriptHex exCoin.sats), .inr [toyH.sha256 exDoc], .inl (.payTo (Address.NewFromPublicKeyHash toyH (List.replicate 20 7) true).AddressString 80)]

/-- non-vacuity of C143_record: the steps are possible, and the payment can be made. -/
example : (∀ s ∈ exNotary, PublishStep exLedger (keyHashes toyH [toySigner]) s) ∧ (∃ calls, publishCalls exNotary = .ok calls ∧ Payable calls) ∧ Sum.inr [toyH.sha256 exDoc] ∈ exNotary ∧
    ∀ d, Sum.inr d ∈ exNotary → ∀ o, Output.NewOpReturnParts d = .ok o → o.LockingScript.length < 2 ^ 64 := by
  have e : Output.NewOpReturnParts [toyH.sha256 exDoc] = .ok ⟨0, [0x00, 0x6a, 0x20] ++ toyH.sha256 exDoc⟩ := by decide +kernel
  refine ⟨?_, ⟨[.fromUtxo exCoin.txid exCoin.vout exCoin.scriptHex exCoin.sats, .addOutput ⟨0, [0x00, 0x6a, 0x20] ++ toyH.sha256 exDoc⟩,
    .payTo (Address.NewFromPublicKeyHash toyH (List.replicate 20 7) true).AddressString 80], ?_, ?_⟩, by simp [exNotary], ?_⟩
  · intro s hs
    simp only [exNotary, List.mem_cons, List.not_mem_nil, or_false] at hs
    rcases hs with rfl | rfl | rfl
    · exact ⟨⟨by unfold IsTxId; decide +kernel, _, List.mem_map.mpr ⟨toySigner, by simp, rfl⟩, (isHexString_iff _).mpr (isHex_encode _), hexDecodeIgnore_encode _, by simp [exLedger, exCoin, WalletCoin.key]⟩, by simp⟩
    · intro p hp
      rw [List.mem_singleton.mp hp, toyH.sha256_length]
      exact ⟨by decide, by unfold overflowLength; decide⟩
    · exact ⟨show IsAddressLike _ by decide +kernel, by simp⟩
  · simp only [publishCalls, exNotary, List.mapM_cons, e]
    rfl
  · exact ⟨⟨_, List.mem_cons_self, by simp [Call.spent]⟩, ⟨.addOutput ⟨0, [0x00, 0x6a, 0x20] ++ toyH.sha256 exDoc⟩, by simp, by simp [Call.outs]⟩, by simp [Call.spent], by decide, by decide⟩
  · intro d hd o ho
    simp only [exNotary, List.mem_cons, List.not_mem_nil, or_false, reduceCtorEq, false_or, Sum.inr.injEq] at hd
    rw [hd, e] at ho
    injection ho with ho
    rw [← ho, List.length_append, toyH.sha256_length]
    decide

/-- A transaction that records the document. -/
def exRecord : Transaction := ⟨1, [⟨List.replicate 64 97, 0, 0, none, some [0x51], 0xffffffff⟩], [⟨0, [0x6a, 0x20] ++ toyH.sha256 exDoc⟩], 0⟩

/-- The header of a block with three transactions, one of which records the document. -/
def exNotaryHeader : Bytes := headerOf toyH 1 (List.replicate 64 97) [1, 2, 3, 4] [5, 6, 7, 8] [9, 10, 11, 12] [7] [[8], exRecord.ToBytes]

/-- non-vacuity of C143_sound and C143_document: a certificate of two branches passes for the document, for another one it does not. -/
example : ∃ branches, certified toyH exNotaryHeader (Nat.clog 2 [[7], [8], exRecord.ToBytes].length) exRecord.ToBytes [] 2 branches exDoc = .ok true ∧
    certified toyH exNotaryHeader (Nat.clog 2 [[7], [8], exRecord.ToBytes].length) exRecord.ToBytes [] 2 branches [0x68] = .ok false := by
  have h : Nat.clog 2 [[7], [8], exRecord.ToBytes].length = 2 := by decide
  rw [h]
  exact ⟨[display (dsha toyH exRecord.ToBytes), display (dsha toyH (dsha toyH [7] ++ dsha toyH [8]))], by decide +kernel, by decide +kernel⟩

/-- The transaction that is in no block: its first 32 bytes are the second half of a transaction. -/
def exForged : Transaction :=
  ⟨1, [⟨display ([0, 0, 0, 0, 0, 255, 255, 255, 255, 1, 7, 0, 0, 0, 0, 0, 0, 0, 4, 0x51, 0x51, 0x51, 0x51] ++ List.replicate 9 0), 0, 0, none, some [], 0xffffffff⟩], [⟨0, [0x6a, 0x20] ++ toyH.sha256 exDoc⟩], 0⟩

/-- The transaction of 64 bytes that is in the block. -/
def exCarrier : Transaction := ⟨1, [⟨display (List.replicate 27 0 ++ [1, 0, 0, 0, 1]), 0, 0, none, some [], 0xffffffff⟩], [⟨7, [0x51, 0x51, 0x51, 0x51]⟩], 0⟩

/-- The document is not recorded in the block, and there is a certificate for it, for who does not know the number of levels. -/
example : ¬ Recorded [[7], exCarrier.ToBytes] (toyH.sha256 exDoc) ∧ ∃ (idx : Int) (branches : List Bytes),
    certified toyH (headerOf toyH 1 (List.replicate 64 97) [1, 2, 3, 4] [5, 6, 7, 8] [9, 10, 11, 12] [7] [exCarrier.ToBytes]) branches.length exForged.ToBytes [] idx branches exDoc = .ok true := by
  constructor
  · rintro ⟨b, hb, t, ht, o, ho, hd, -⟩
    have hp := fun hl => (C35_accepts_iff b [] hl t).mpr (isTx_mono ht)
    simp only [List.mem_cons, List.not_mem_nil, or_false] at hb
    rcases hb with rfl | rfl
    · have h1 := hp (by decide)
      have h2 : (NewFromBytes ⟨[7], []⟩).isOk = false := by decide +kernel
      rw [h1] at h2
      cases h2
    · have h1 := hp (by decide +kernel)
      have h2 : NewFromBytes ⟨exCarrier.ToBytes, []⟩ = .ok exCarrier := by decide +kernel
      rw [h1] at h2
      injection h2 with h2
      subst h2
      rw [exCarrier, List.mem_singleton] at ho
      rw [ho] at hd
      rcases hd with ⟨r, e⟩ | ⟨r, e⟩ <;> cases e
  · have hw : wireTx exForged = exForged := by decide +kernel
    have hF := tx_toBytes_isTx exForged (by decide +kernel) (by decide +kernel)
    rw [hw] at hF
    exact C143_levels_violated toyH 1 (List.replicate 64 97) [1, 2, 3, 4] [5, 6, 7, 8] [9, 10, 11, 12] [7] [exCarrier.ToBytes] (by decide +kernel) rfl rfl rfl exCarrier (by decide +kernel) (by simp)
      exForged _ hF (by decide +kernel) [] (by decide +kernel) [[[0x6a], toyH.sha256 exDoc]] (by decide +kernel) exDoc ⟨_, List.mem_singleton.mpr rfl, by simp⟩

end Verif.Props
