import Verif.Spec.Ledger
import Verif.Props.Handover
import Verif.Props.Size
/-!
# C115: a payment made with the library is accepted by a node, and a wallet on top of the library stays in step with the ledger
-/
namespace Verif.Props
open Verif Spec Transaction

theorem accepted_wire (H : HashFns) (verify : Bytes → Bytes → Bytes → Bool) (tx : Transaction) (ht : ∀ i ∈ tx.Inputs, IsTxId i.PreviousTxID) (k : Nat)
    (lock : Bytes) (sats : UInt64) (ha : Accepted H verify tx k lock sats) : Accepted H verify (wireTx tx) k lock sats := by
  obtain ⟨inp, unl, us, ts, st, rest, h1, h2, h3, h4, h5, h6, h7, h8⟩ := ha
  have hid := ht inp (List.mem_of_getElem? h1)
  have hc : checkSigOf H verify (wireTx tx) k (wireInput inp) lock sats = checkSigOf H verify tx k inp lock sats := by
    funext pub sf
    unfold checkSigOf
    cases sf.getLast? with
    | none => rfl
    | some flag => simp only [preimage_wire _ tx ht k inp hid sats lock flag]
  refine ⟨wireInput inp, unl, us, ts, st, rest, ?_, ?_, h3, h4, h5, h6, ?_, ?_⟩
  · simp [wireTx, h1]
  · simp [wireInput, h2]
  · rw [hc]; exact h7
  · rw [hc]; exact h8

theorem wire_outpoints (tx : Transaction) (ht : ∀ i ∈ tx.Inputs, IsTxId i.PreviousTxID) : (wireTx tx).Inputs.map outpoint = tx.Inputs.map outpoint := by
  simp only [wireTx, List.map_map]
  exact List.map_congr_left fun i hi => wireInput_outpoint i (ht i hi)

theorem outpoints_same {tx t : Transaction} (h : SameButUnlocking tx t) : t.Inputs.map outpoint = tx.Inputs.map outpoint := by
  have := congrArg (List.map outpoint) h.2.2.2
  simp only [List.map_map] at this
  exact this.symm

theorem valueIn_eq (L : Ledger) (tx : Transaction) : valueIn L tx = ((tx.Inputs.map outpoint).map fun k => match L k with | some c => c.sats.toNat | none => 0).sum := by
  simp only [valueIn, List.map_map]; rfl

/-- The transaction that a list of well-formed calls makes. -/
theorem built (calls : List Call) (hw : ∀ c ∈ calls, c.wellFormed) :
    applyCalls Transaction.New calls = .ok ({ Transaction.New with Inputs := calls.flatMap Call.ins, Outputs := calls.flatMap Call.outs }, List.replicate calls.length true) := by
  have hf : calls.filter (decide ·.wellFormed) = calls := by
    rw [List.filter_eq_self]; intro c hc; exact decide_eq_true (hw c hc)
  have hflags : calls.map (decide ·.wellFormed) = List.replicate calls.length true := by
    rw [List.eq_replicate_iff]
    refine ⟨by simp, fun b hb => ?_⟩
    obtain ⟨c, hc, rfl⟩ := List.mem_map.mp hb
    exact decide_eq_true (hw c hc)
  have hrun := C41_history_from Transaction.New calls
  rw [hf, hflags] at hrun
  simpa [Transaction.New] using hrun

/-- What is known of the inputs of a payment. -/
theorem payment_inputs {L : Ledger} {hashes : List Bytes} {calls : List Call} (hc : ∀ c ∈ calls, PaymentCall L hashes c) :
    ∀ i ∈ calls.flatMap Call.ins, IsTxId i.PreviousTxID ∧ (∃ h ∈ hashes, i.PreviousTxScript = some (p2pkh h) ∧ L (outpoint i) = some ⟨i.PreviousTxSatoshis, p2pkh h⟩) ∧
      i.UnlockingScript = none ∧ i.SequenceNumber = 0xffffffff := by
  intro i hi
  obtain ⟨c, hcm, hic⟩ := List.mem_flatMap.mp hi
  have := hc c hcm
  cases c with
  | fromUtxo t v s sats =>
    simp only [Call.ins, List.mem_singleton] at hic
    subst hic
    obtain ⟨h1, h, hm, -, h2, h3⟩ := this
    refine ⟨h1, ⟨h, hm, by simp [h2], ?_⟩, rfl, rfl⟩
    simpa [outpoint, outpointOf] using h3
  | addInput i => exact this.elim
  | addOutput o => simp [Call.ins] at hic
  | payTo a s => simp [Call.ins] at hic

theorem payment_outpoints (L : Ledger) (hashes : List Bytes) (calls : List Call) (hc : ∀ c ∈ calls, PaymentCall L hashes c) :
    (calls.flatMap Call.ins).map outpoint = calls.flatMap Call.spent := by
  induction calls with
  | nil => rfl
  | cons c cs ih =>
    rw [List.flatMap_cons, List.flatMap_cons, List.map_append, ih fun x hx => hc x (by simp [hx])]
    have := hc c (by simp)
    cases c with
    | fromUtxo t v s sats => simp [Call.ins, Call.spent, outpoint, outpointOf]
    | addInput i => exact this.elim
    | addOutput o => simp [Call.ins, Call.spent]
    | payTo a s => simp [Call.ins, Call.spent]

theorem payment_valueIn (L : Ledger) (hashes : List Bytes) (calls : List Call) (hc : ∀ c ∈ calls, PaymentCall L hashes c) :
    ((calls.flatMap Call.spent).map fun k => match L k with | some c => c.sats.toNat | none => 0).sum = (calls.map Call.amountIn).sum := by
  induction calls with
  | nil => rfl
  | cons c cs ih =>
    rw [List.flatMap_cons, List.map_append, List.sum_append, ih fun x hx => hc x (by simp [hx]), List.map_cons, List.sum_cons]
    congr 1
    have := hc c (by simp)
    cases c with
    | fromUtxo t v s sats =>
      obtain ⟨-, h, -, -, -, h3⟩ := this
      simp [Call.spent, Call.amountIn, h3]
    | addInput i => exact this.elim
    | addOutput o => simp [Call.spent, Call.amountIn]
    | payTo a s => simp [Call.spent, Call.amountIn]

theorem payment_valueOut (calls : List Call) : ((calls.flatMap Call.outs).map (·.Satoshis.toNat)).sum = (calls.map Call.amountOut).sum := by
  induction calls with
  | nil => rfl
  | cons c cs ih =>
    rw [List.flatMap_cons, List.map_append, List.sum_append, ih, List.map_cons, List.sum_cons]
    congr 1
    cases c <;> simp [Call.outs, Call.amountOut]

theorem payment_outputs {L : Ledger} {hashes : List Bytes} {calls : List Call} (hc : ∀ c ∈ calls, PaymentCall L hashes c) :
    ∀ o ∈ calls.flatMap Call.outs, o.LockingScript.length < 2 ^ 64 := by
  intro o ho
  obtain ⟨c, hcm, hoc⟩ := List.mem_flatMap.mp ho
  have := hc c hcm
  cases c with
  | fromUtxo t v s sats => simp [Call.outs] at hoc
  | addInput i => exact this.elim
  | addOutput o' =>
    simp only [Call.outs, List.mem_singleton] at hoc
    subst hoc; exact this
  | payTo a s =>
    simp only [Call.outs, List.mem_singleton] at hoc
    subst hoc
    simp
    omega

theorem ins_length (calls : List Call) : (calls.flatMap Call.ins).length ≤ calls.length ∧ (calls.flatMap Call.outs).length ≤ calls.length := by
  induction calls with
  | nil => simp
  | cons c cs ih =>
    simp only [List.flatMap_cons, List.length_append, List.length_cons]
    have : c.ins.length ≤ 1 ∧ c.outs.length ≤ 1 := by cases c <;> simp [Call.ins, Call.outs]
    omega

theorem payment_wellFormed {L : Ledger} {hashes : List Bytes} {calls : List Call} (hc : ∀ c ∈ calls, PaymentCall L hashes c) : ∀ c ∈ calls, c.wellFormed := by
  intro c hcm
  have := hc c hcm
  cases c with
  | fromUtxo t v s sats => obtain ⟨-, h, -, h1, -⟩ := this; exact h1
  | addInput i => trivial
  | addOutput o => trivial
  | payTo a s => exact this

theorem after_congr (L : Ledger) (hash : Bytes) {tx t : Transaction} (h1 : tx.Outputs = t.Outputs) (h2 : tx.Inputs.map outpoint = t.Inputs.map outpoint) :
    L.after hash tx = L.after hash t := by
  unfold Ledger.after created; rw [h1, h2]

/-- The hashes of the keys of the signers. -/
def keyHashes (H : HashFns) (signers : List InternalSigner) : List Bytes := signers.map fun is => H.ripemd160 (H.sha256 is.pubKey)

/-- C115 (a): take any calls, in any order, that add unspent outputs of the keys (correctly described) and outputs; make them on a new transaction and sign with the keys, in any
order. Nothing fails, the transaction spends and pays what the calls say, and a node that knows these unspent outputs accepts its bytes exactly if the calls spend something and pay
something, spend nothing twice and pay no more than they spend (and the bytes are not too many and no other transaction has the same hash). The outputs the node knows afterwards
are those paid instead of those spent. -/
theorem C115_payment (H : HashFns) (verify : Bytes → Bytes → Bytes → Bool) (signers : List InternalSigner) (hg : ∀ is ∈ signers, GoodSigner verify is) (L : Ledger)
    (calls : List Call) (hc : ∀ c ∈ calls, PaymentCall L (keyHashes H signers) c) (hlen : calls.length < 2 ^ 31) :
    ∃ tx tx', applyCalls Transaction.New calls = .ok (tx, List.replicate calls.length true) ∧ signWithAll H signers tx = .ok tx' ∧
      tx'.Outputs = calls.flatMap Call.outs ∧ tx'.Inputs.map outpoint = calls.flatMap Call.spent ∧
      ((∃ L', NodeAccepts H verify L tx'.ToBytes L') ↔
        Payable calls ∧ tx'.ToBytes.length ≤ maxTxBytes ∧ ∀ n < 2 ^ 32, L (H.sha256 (H.sha256 tx'.ToBytes) ++ leBytes 4 n) = none) ∧
      ∀ L', NodeAccepts H verify L tx'.ToBytes L' → L' = L.after (H.sha256 (H.sha256 tx'.ToBytes)) tx' := by
  have hb := built calls (payment_wellFormed hc)
  obtain ⟨tx, htx⟩ : ∃ tx : Transaction, tx = { Transaction.New with Inputs := calls.flatMap Call.ins, Outputs := calls.flatMap Call.outs } := ⟨_, rfl⟩
  rw [← htx] at hb
  have hi1 : tx.Inputs = calls.flatMap Call.ins := by rw [htx]
  have ho1 : tx.Outputs = calls.flatMap Call.outs := by rw [htx]
  have hlock : tx.Locktime = 0 := by rw [htx]; rfl
  obtain ⟨l1, l2⟩ := ins_length calls
  have hpi := payment_inputs hc
  rw [← hi1] at hpi
  have h20 : ∀ h ∈ keyHashes H signers, h.length = 20 := by
    intro h hm
    obtain ⟨is, -, rfl⟩ := List.mem_map.mp hm
    exact H.ripemd160_length _
  have hs : Sized tx := by
    refine ⟨by rw [hi1]; omega, by rw [ho1]; omega, by rw [ho1]; exact payment_outputs hc, ?_⟩
    intro i hi s hsome
    obtain ⟨-, ⟨h, hm, h1, -⟩, -⟩ := hpi i hi
    rw [h1] at hsome
    injection hsome with hsome
    rw [← hsome]; simp [p2pkh, h20 h hm]
  have hrd : ReadableScripts tx := fun i hi hpan => by
    obtain ⟨-, ⟨h, hm, h1, -⟩, -⟩ := hpi i hi
    rw [h1, p2pkh, C14_getPublicKeyHash _ (h20 h hm)] at hpan
    cases hpan
  obtain ⟨tx', s1, s2, s3⟩ := C70_signed_accepted H verify signers hg tx hs hrd
  have ho' : tx'.Outputs = calls.flatMap Call.outs := by rw [← s2.2.2.1, ho1]
  have hop : tx'.Inputs.map outpoint = calls.flatMap Call.spent := by
    rw [outpoints_same s2, hi1, payment_outpoints L _ calls hc]
  have ht' := txids_same s2 fun i hi => (hpi i hi).1
  have hwo := wire_outpoints tx' ht'
  have hvi : valueIn L (wireTx tx') = (calls.map Call.amountIn).sum := by
    rw [valueIn_eq, hwo, hop, payment_valueIn L _ calls hc]
  have hvo : valueOut (wireTx tx') = (calls.map Call.amountOut).sum := by
    show (tx'.Outputs.map (·.Satoshis.toNat)).sum = _
    rw [ho', payment_valueOut]
  have hmx : maxTxBytes < 2 ^ 62 := by decide
  have hwire : ∀ t, tx'.ToBytes.length ≤ maxTxBytes → IsTx MinCompactSize t tx'.ToBytes → t = wireTx tx' := by
    intro t hl h
    have e1 := (C35_accepts_iff tx'.ToBytes [] (by simp; omega) t).mpr (isTx_mono h)
    have e2 := C33_parse_serialise tx' ht' [] (by simp; omega)
    rw [e1] at e2
    injection e2
  refine ⟨tx, tx', hb, s1, ho', hop, ⟨?_, ?_⟩, ?_⟩
  · rintro ⟨L', h1, h2, t, h3, h4, -⟩
    have := hwire t h1 h3
    subst this
    refine ⟨⟨?_, ?_, ?_, ?_, ?_⟩, h1, h2⟩
    · by_contra hno
      apply h4.inputs
      rw [← List.map_eq_nil_iff (f := outpoint), hwo, hop, List.flatMap_eq_nil_iff]
      intro c hcm
      by_contra hne
      exact hno ⟨c, hcm, hne⟩
    · by_contra hno
      apply h4.outputs
      show tx'.Outputs = []
      rw [ho', List.flatMap_eq_nil_iff]
      intro c hcm
      by_contra hne
      exact hno ⟨c, hcm, hne⟩
    · have := h4.distinct
      rwa [hwo, hop] at this
    · have := h4.range.1
      rwa [hvi] at this
    · have := h4.funded
      rwa [hvi, hvo] at this
  · rintro ⟨⟨p1, p2, p3, p4, p5⟩, hlenb, hfresh⟩
    refine ⟨_, hlenb, hfresh, wireTx tx', tx_toBytes_isTx tx' ht' (by omega), ⟨?_, ?_, ?_, ?_, ?_, ?_, Or.inl ?_⟩, rfl⟩
    · obtain ⟨c, hm, hne⟩ := p1
      intro e
      have : (wireTx tx').Inputs.map outpoint = [] := by rw [e]; rfl
      rw [hwo, hop] at this
      exact hne (List.flatMap_eq_nil_iff.mp this c hm)
    · obtain ⟨c, hm, hne⟩ := p2
      show tx'.Outputs ≠ []
      rw [ho']
      intro e
      exact hne (List.flatMap_eq_nil_iff.mp e c hm)
    · rw [hwo, hop]; exact p3
    · intro k inp hk
      simp only [wireTx, List.getElem?_map, Option.map_eq_some_iff] at hk
      obtain ⟨i', hk', rfl⟩ := hk
      have hlt : k < tx.Inputs.length := by
        have e1 := (List.getElem?_eq_some_iff.mp hk').1
        have := congrArg List.length s2.2.2.2
        simp only [List.length_map] at this
        omega
      obtain ⟨i, hki⟩ : ∃ i, tx.Inputs[k]? = some i := ⟨_, List.getElem?_eq_getElem hlt⟩
      obtain ⟨i'', e1, e2, e3, e4, e5, e6⟩ := input_same_full s2 k i hki
      rw [hk'] at e1; injection e1 with e1; subst e1
      obtain ⟨hid, ⟨h, hm, hps, hL⟩, -⟩ := hpi i (List.mem_of_getElem? hki)
      obtain ⟨is, his, rfl⟩ := List.mem_map.mp hm
      refine ⟨⟨i.PreviousTxSatoshis, p2pkh (H.ripemd160 (H.sha256 is.pubKey))⟩, ?_, accepted_wire H verify tx' ht' k _ _ (s3 is his k i hki ?_ hps)⟩
      · rw [wireInput_outpoint i' (ht' i' (List.mem_of_getElem? hk'))]
        have : outpoint i' = outpoint i := by simp only [outpoint, e2, e3]
        rw [this]; exact hL
      · intro e; have := hid.1; rw [e] at this; simp at this
    · rw [hvi, hvo]; exact ⟨p4, by omega⟩
    · rw [hvi, hvo]; exact p5
    · show tx'.Locktime = 0
      rw [← s2.2.1]; exact hlock
  · rintro L' ⟨h1, -, t, h3, -, rfl⟩
    have := hwire t h1 h3
    subst this
    exact after_congr L _ rfl hwo

/-! ## A wallet on top of the library -/

/-- What the wallet remembers of a transaction: its outputs that pay to one of its keys, each with the id, the index, the script and the amount the library gives. -/
def received (H : HashFns) (hashes : List Bytes) (tx : Transaction) : List WalletCoin :=
  (tx.Outputs.zipIdx.filter fun x => decide (x.1.LockingScript ∈ hashes.map p2pkh)).map fun x => ⟨tx.GetTxID H, UInt32.ofNat x.2, x.1.GetLockingScriptHexString, x.1.Satoshis⟩

/-- What happens to a wallet: it makes a payment, or it sees a transaction of somebody. -/
inductive WalletEvent where
  | pay (p : Payment)
  | seen (b : Bytes)

/-- What the wallet does, with the library: the coins it has afterwards, and the bytes of the transaction. -/
def walletStep (H : HashFns) (signers : List InternalSigner) (W : List WalletCoin) : WalletEvent → Res (List WalletCoin × Bytes)
  | .pay p => do
    let (tx, _) ← applyCalls Transaction.New p.calls
    let tx ← signWithAll H signers tx
    pure (W.filter (fun w => decide (w ∉ p.spend)) ++ received H (keyHashes H signers) tx, tx.ToBytes)
  | .seen b => do
    let tx ← Transaction.NewFromBytes (Slice.exact b)
    pure (W.filter (fun w => decide (w.key ∉ tx.Inputs.map outpoint)) ++ received H (keyHashes H signers) tx, b)

theorem lookup_of_mem {α β : Type} [BEq α] [LawfulBEq α] (l : List (α × β)) (h : (l.map (·.1)).Nodup) {k : α} {b : β} (hm : (k, b) ∈ l) : l.lookup k = some b := by
  induction l with
  | nil => cases hm
  | cons x l ih =>
    obtain ⟨k', b'⟩ := x
    simp only [List.map_cons, List.nodup_cons] at h
    rcases List.mem_cons.mp hm with e | hml
    · injection e with e1 e2; subst e1; subst e2; simp [List.lookup]
    · have hne : k ≠ k' := by
        rintro rfl
        exact h.1 (List.mem_map.mpr ⟨(k, b), hml, rfl⟩)
      have : (k == k') = false := by simpa using hne
      simp only [List.lookup, this]
      exact ih h.2 hml

theorem mem_of_lookup {α β : Type} [BEq α] [LawfulBEq α] (l : List (α × β)) {k : α} {b : β} (h : l.lookup k = some b) : (k, b) ∈ l := by
  induction l with
  | nil => cases h
  | cons x l ih =>
    obtain ⟨k', b'⟩ := x
    simp only [List.lookup] at h
    split at h
    · rename_i e
      have : k = k' := by simpa using e
      injection h with h
      subst this; subst h; simp
    · exact List.mem_cons_of_mem _ (ih h)

theorem leBytes4_inj {a b : Nat} (ha : a < 2 ^ 32) (hb : b < 2 ^ 32) (h : leBytes 4 a = leBytes 4 b) : a = b := by
  have h1 := leNat_leBytes 4 a
  have h2 := leNat_leBytes 4 b
  rw [h, h2, show (256 : Nat) ^ 4 = 2 ^ 32 by decide, Nat.mod_eq_of_lt ha, Nat.mod_eq_of_lt hb] at h1
  exact h1.symm

theorem created_nodup (hash : Bytes) (tx : Transaction) (hl : tx.Outputs.length < 2 ^ 32) : ((created hash tx).map (·.1)).Nodup := by
  rw [List.nodup_iff_getElem?_ne_getElem?]
  intro i j hij hj he
  simp only [created, List.length_map, List.length_mapIdx] at hj
  simp only [created, List.getElem?_map, List.getElem?_mapIdx] at he
  rw [List.getElem?_eq_getElem hj, List.getElem?_eq_getElem (show i < tx.Outputs.length by omega)] at he
  simp only [Option.map_some, Option.some.injEq, List.append_cancel_left_eq] at he
  have := leBytes4_inj (by omega) (by omega) he
  omega

theorem created_mem {hash : Bytes} {tx : Transaction} {k : Bytes} {c : Coin} (h : (k, c) ∈ created hash tx) : ∃ n < tx.Outputs.length, k = hash ++ leBytes 4 n := by
  obtain ⟨n, hn, e⟩ := List.mem_mapIdx.mp h
  injection e with e1 e2
  exact ⟨n, hn, e1.symm⟩

/-- The key of the coin for output `n`. -/
theorem received_key (H : HashFns) (tx : Transaction) (n : Nat) (hn : n < 2 ^ 32) (s : Bytes) (a : UInt64) :
    WalletCoin.key ⟨tx.GetTxID H, UInt32.ofNat n, s, a⟩ = H.sha256 (H.sha256 tx.ToBytes) ++ leBytes 4 n := by
  simp only [WalletCoin.key, outpointOf, (C38_txid_form H tx).1, hexDecodeIgnore_encode, List.reverse_reverse]
  rw [UInt32.toNat_ofNat', Nat.mod_eq_of_lt hn]

theorem mem_received {H : HashFns} {hashes : List Bytes} {tx : Transaction} {w : WalletCoin} (h : w ∈ received H hashes tx) :
    ∃ n o, tx.Outputs[n]? = some o ∧ o.LockingScript ∈ hashes.map p2pkh ∧ w = ⟨tx.GetTxID H, UInt32.ofNat n, hexEncode o.LockingScript, o.Satoshis⟩ := by
  obtain ⟨x, hx, rfl⟩ := List.mem_map.mp h
  obtain ⟨h1, h2⟩ := List.mem_filter.mp hx
  exact ⟨x.2, x.1, List.mem_zipIdx_iff_getElem?.mp h1, by simpa using h2, rfl⟩

theorem received_nodup (H : HashFns) (hashes : List Bytes) (tx : Transaction) (hl : tx.Outputs.length < 2 ^ 32) : ((received H hashes tx).map WalletCoin.key).Nodup := by
  have h1 : (received H hashes tx).map WalletCoin.key = (tx.Outputs.zipIdx.filter fun x => decide (x.1.LockingScript ∈ hashes.map p2pkh)).map
      fun x => H.sha256 (H.sha256 tx.ToBytes) ++ leBytes 4 x.2 := by
    rw [received, List.map_map]
    apply List.map_congr_left
    intro x hx
    have h1 := List.mem_zipIdx_iff_getElem?.mp (List.mem_filter.mp hx).1
    have := (List.getElem?_eq_some_iff.mp h1).1
    exact received_key H tx x.2 (by omega) _ _
  rw [h1]
  refine List.Nodup.sublist (List.Sublist.map _ List.filter_sublist) ?_
  have h2 : tx.Outputs.zipIdx.map (fun x => H.sha256 (H.sha256 tx.ToBytes) ++ leBytes 4 x.2) = (created (H.sha256 (H.sha256 tx.ToBytes)) tx).map (·.1) := by
    apply List.ext_getElem?
    intro i
    simp only [created, List.getElem?_map, List.getElem?_mapIdx, List.getElem?_zipIdx, Option.map_map, Nat.zero_add]
    rfl
  rw [h2]
  exact created_nodup _ tx hl

theorem isTxId_txid (H : HashFns) (tx : Transaction) : IsTxId (tx.GetTxID H) := by
  rw [(C38_txid_form H tx).1]
  refine isTxId_iff.mpr ⟨isHex_encode _, ?_⟩
  rw [hexEncode_length, List.length_reverse, H.sha256_length]

/-- The coins that stay and the coins received are in the ledger after a transaction. -/
theorem backed_after (H : HashFns) {hashes : List Bytes} {W : List WalletCoin} {L : Ledger} (hB : Backed hashes W L) (tx : Transaction) (hl : tx.Outputs.length < 2 ^ 32)
    (hfresh : ∀ n < 2 ^ 32, L (H.sha256 (H.sha256 tx.ToBytes) ++ leBytes 4 n) = none) (f : WalletCoin → Bool) (hf : ∀ w ∈ W, f w = true → w.key ∉ tx.Inputs.map outpoint) :
    Backed hashes (W.filter f ++ received H hashes tx) (L.after (H.sha256 (H.sha256 tx.ToBytes)) tx) := by
  obtain ⟨hn, hb⟩ := hB
  have hold : ∀ w ∈ W, ∀ n < 2 ^ 32, w.key ≠ H.sha256 (H.sha256 tx.ToBytes) ++ leBytes 4 n := by
    intro w hw n hlt e
    obtain ⟨-, h, -, -, -, h2⟩ := hb w hw
    rw [e, hfresh n hlt] at h2
    cases h2
  have hnew : ∀ w ∈ received H hashes tx, ∃ n o, n < 2 ^ 32 ∧ tx.Outputs[n]? = some o ∧ o.LockingScript ∈ hashes.map p2pkh ∧
      w = ⟨tx.GetTxID H, UInt32.ofNat n, hexEncode o.LockingScript, o.Satoshis⟩ ∧ w.key = H.sha256 (H.sha256 tx.ToBytes) ++ leBytes 4 n := by
    intro w hw
    obtain ⟨n, o, h1, h2, rfl⟩ := mem_received hw
    have := (List.getElem?_eq_some_iff.mp h1).1
    exact ⟨n, o, by omega, h1, h2, rfl, received_key H tx n (by omega) _ _⟩
  refine ⟨?_, fun w hw => ?_⟩
  · rw [List.map_append, List.nodup_append]
    refine ⟨hn.sublist (List.Sublist.map _ List.filter_sublist), received_nodup H hashes tx hl, ?_⟩
    intro a ha b hb'
    obtain ⟨w, hw, rfl⟩ := List.mem_map.mp ha
    obtain ⟨v, hv, rfl⟩ := List.mem_map.mp hb'
    obtain ⟨n, o, h1, -, -, -, h2⟩ := hnew v hv
    rw [h2]
    exact hold w (List.mem_filter.mp hw).1 n h1
  · rcases List.mem_append.mp hw with hw | hw
    · obtain ⟨hw, hfw⟩ := List.mem_filter.mp hw
      obtain ⟨h1, h, hm, h2, h3, h4⟩ := hb w hw
      refine ⟨h1, h, hm, h2, h3, ?_⟩
      unfold Ledger.after
      rcases hlk : (created (H.sha256 (H.sha256 tx.ToBytes)) tx).lookup w.key with _ | c
      · simp only [if_neg (hf w hw hfw)]; exact h4
      · obtain ⟨n, hlt, e⟩ := created_mem (mem_of_lookup _ hlk)
        exact absurd e (hold w hw n (by omega))
    · obtain ⟨n, o, h1, h2, h3, h4, h5⟩ := hnew w hw
      obtain ⟨h, hm, h6⟩ := List.mem_map.mp h3
      have hkc : (w.key, (⟨o.Satoshis, o.LockingScript⟩ : Coin)) ∈ created (H.sha256 (H.sha256 tx.ToBytes)) tx := by
        rw [h5]
        have hlt := (List.getElem?_eq_some_iff.mp h2).1
        refine List.mem_mapIdx.mpr ⟨n, hlt, ?_⟩
        have := (List.getElem?_eq_some_iff.mp h2).2
        rw [this]
      have := lookup_of_mem _ (created_nodup _ tx hl) hkc
      refine ⟨by rw [h4]; exact isTxId_txid H tx, h, hm, ?_, ?_, ?_⟩
      · rw [h4]; exact (isHexString_iff _).mpr (isHex_encode _)
      · rw [h4]; simp only [hexDecodeIgnore_encode]; exact h6.symm
      · unfold Ledger.after
        rw [this]
        have e : w.sats = o.Satoshis := by rw [h4]
        simp only [e, h6]

/-- The node accepts the transactions, one after the other. -/
def NodeAcceptsAll (H : HashFns) (verify : Bytes → Bytes → Bytes → Bool) : Ledger → List Bytes → Ledger → Prop
  | L, [], L' => L' = L
  | L, b :: bs, L' => ∃ L1, NodeAccepts H verify L b L1 ∧ NodeAcceptsAll H verify L1 bs L'

/-- The wallet's steps, one after the other. -/
def walletRun (H : HashFns) (signers : List InternalSigner) : List WalletCoin → List WalletEvent → Res (List WalletCoin × List Bytes)
  | W, [] => pure (W, [])
  | W, e :: es => do
    let (W, b) ← walletStep H signers W e
    let (W, bs) ← walletRun H signers W es
    pure (W, b :: bs)

/-- A history that can happen: the wallet's payments are affordable when they are made, not too large, and no other transaction has their hash; the node accepts the transactions of others. -/
def Possible (H : HashFns) (verify : Bytes → Bytes → Bytes → Bool) (signers : List InternalSigner) : List WalletCoin → Ledger → List WalletEvent → Prop
  | _, _, [] => True
  | W, L, .pay p :: es => Affordable W p ∧ ∀ W' b, walletStep H signers W (.pay p) = .ok (W', b) →
      b.length ≤ maxTxBytes ∧ (∀ n < 2 ^ 32, L (H.sha256 (H.sha256 b) ++ leBytes 4 n) = none) ∧ ∀ L', NodeAccepts H verify L b L' → Possible H verify signers W' L' es
  | W, L, .seen b :: es => ∃ L', NodeAccepts H verify L b L' ∧ ∀ W', walletStep H signers W (.seen b) = .ok (W', b) → Possible H verify signers W' L' es

theorem payment_calls {L : Ledger} {hashes : List Bytes} {W : List WalletCoin} (hB : Backed hashes W L) {p : Payment} (hp : Affordable W p) :
    (∀ c ∈ p.calls, PaymentCall L hashes c) ∧ p.calls.flatMap Call.spent = p.spend.map WalletCoin.key ∧ (p.calls.map Call.amountIn).sum = (p.spend.map (·.sats.toNat)).sum ∧
      (p.calls.map Call.amountOut).sum = (p.pay.map (·.2.toNat)).sum ∧ (p.calls.flatMap Call.outs).length = p.pay.length ∧ (p.calls.flatMap Call.ins).length = p.spend.length := by
  refine ⟨?_, ?_, ?_, ?_, ?_, ?_⟩
  · intro c hc
    rcases List.mem_append.mp hc with hc | hc
    · obtain ⟨w, hw, rfl⟩ := List.mem_map.mp hc
      exact hB.2 w (hp.spend.2.2 w hw)
    · obtain ⟨a, ha, rfl⟩ := List.mem_map.mp hc
      exact hp.pay.2 a ha
  · simp only [Payment.calls, List.flatMap_append, List.flatMap_map]
    have : p.pay.flatMap (fun a => Call.spent (Call.payTo a.1 a.2)) = [] := by simp [Call.spent]
    rw [this, List.append_nil]
    simp only [Call.spent]
    rw [← List.map_eq_flatMap]; rfl
  · simp only [Payment.calls, List.map_append, List.map_map, List.sum_append]
    have : (p.pay.map (Call.amountIn ∘ fun a => Call.payTo a.1 a.2)).sum = 0 := by simp [Function.comp_def, Call.amountIn]
    rw [this]; rfl
  · simp only [Payment.calls, List.map_append, List.map_map, List.sum_append]
    have : (p.spend.map (Call.amountOut ∘ fun w => Call.fromUtxo w.txid w.vout w.scriptHex w.sats)).sum = 0 := by simp [Function.comp_def, Call.amountOut]
    rw [this, Nat.zero_add]; rfl
  · simp only [Payment.calls, List.flatMap_append, List.flatMap_map, List.length_append, List.length_flatMap, Call.outs]
    simp
  · simp only [Payment.calls, List.flatMap_append, List.flatMap_map, List.length_append, List.length_flatMap, Call.ins]
    simp

/-- One payment of the wallet. -/
theorem wallet_pay (H : HashFns) (verify : Bytes → Bytes → Bytes → Bool) (signers : List InternalSigner) (hg : ∀ is ∈ signers, GoodSigner verify is) {L : Ledger} {W : List WalletCoin}
    (hB : Backed (keyHashes H signers) W L) {p : Payment} (hp : Affordable W p) :
    ∃ W' b, walletStep H signers W (.pay p) = .ok (W', b) ∧ (b.length ≤ maxTxBytes → (∀ n < 2 ^ 32, L (H.sha256 (H.sha256 b) ++ leBytes 4 n) = none) →
      ∃ L', NodeAccepts H verify L b L' ∧ Backed (keyHashes H signers) W' L') := by
  obtain ⟨c1, c2, c3, c4, c5, c6⟩ := payment_calls hB hp
  have hinj : ∀ w ∈ W, ∀ v ∈ W, w.key = v.key → w = v := fun w hw v hv e => List.inj_on_of_nodup_map hB.1 hw hv e
  have hspk : (p.spend.map WalletCoin.key).Nodup := hp.spend.2.1.map_on fun w hw v hv e => hinj w (hp.spend.2.2 w hw) v (hp.spend.2.2 v hv) e
  obtain ⟨tx, tx', h1, h2, h3, h4, h5, h6⟩ := C115_payment H verify signers hg L p.calls c1 (by simpa [Payment.calls] using hp.size)
  have hpay : Payable p.calls := by
    refine ⟨?_, ?_, by rw [c2]; exact hspk, by rw [c3]; exact hp.range, by rw [c3, c4]; exact hp.funded⟩
    · obtain ⟨w, ws, e⟩ := List.exists_cons_of_ne_nil hp.spend.1
      exact ⟨.fromUtxo w.txid w.vout w.scriptHex w.sats, by simp [Payment.calls, e], by simp [Call.spent]⟩
    · obtain ⟨a, as, e⟩ := List.exists_cons_of_ne_nil hp.pay.1
      exact ⟨.payTo a.1 a.2, by simp [Payment.calls, e], by simp [Call.outs]⟩
  refine ⟨_, _, by simp only [walletStep, h1, Res.ok_bind, h2]; rfl, fun hb hfr => ?_⟩
  obtain ⟨L', hL'⟩ := h5.mpr ⟨hpay, hb, hfr⟩
  refine ⟨L', hL', ?_⟩
  rw [h6 L' hL']
  refine backed_after H hB tx' (by rw [h3, c5]; have := hp.size; omega) hfr _ fun w hw hns => ?_
  rw [h4, c2]
  intro hm
  obtain ⟨v, hv, e⟩ := List.mem_map.mp hm
  have := hinj v (hp.spend.2.2 v hv) w hw e
  subst this
  simp [hv] at hns

theorem isSeq_length {α : Type} {P : α → Bytes → Prop} (hP : ∀ x b, P x b → 1 ≤ b.length) : ∀ (xs : List α) (b : Bytes), IsSeq P xs b → xs.length ≤ b.length
  | [], _, _ => by simp
  | x :: xs, b, h => by
    obtain ⟨b1, b2, h1, h2, rfl⟩ := h
    have := hP x b1 h1
    have := isSeq_length hP xs b2 h2
    simp only [List.length_cons, List.length_append]; omega

/-- One transaction seen. -/
theorem wallet_seen (H : HashFns) (verify : Bytes → Bytes → Bytes → Bool) (signers : List InternalSigner) {L L' : Ledger} {W : List WalletCoin}
    (hB : Backed (keyHashes H signers) W L) {b : Bytes} (hb : NodeAccepts H verify L b L') :
    ∃ W', walletStep H signers W (.seen b) = .ok (W', b) ∧ Backed (keyHashes H signers) W' L' := by
  obtain ⟨h1, h2, tx, h3, -, rfl⟩ := hb
  have hmx : maxTxBytes < 2 ^ 32 := by decide
  have hp : Transaction.NewFromBytes (Slice.exact b) = .ok tx := (C35_accepts_iff b [] (by simp; omega) tx).mpr (isTx_mono h3)
  have he : tx.ToBytes = b := (isTx_min_eq tx b h3).symm
  refine ⟨_, by simp only [walletStep, hp, Res.ok_bind]; rfl, ?_⟩
  rw [← he]
  refine backed_after H hB tx ?_ (by rw [he]; exact h2) _ fun w _ hns => by simpa using hns
  obtain ⟨ci, bi, co, bo, -, -, -, g4, rfl⟩ := h3
  have := isSeq_length (fun o b (h : IsOutput MinCompactSize o b) => by
    obtain ⟨count, -, rfl⟩ := h
    simp only [List.length_append, leBytes_length]; omega) _ _ g4
  simp only [List.length_append] at h1
  omega

/-- C115 (b), a wallet: it keeps its coins as the id, index, script and amount that the library gives for the outputs of the transactions it makes and sees, spends them with `From`,
`PayTo` and `SignAuto`, and forgets what was spent. If its coins are in the ledger to begin with, then through any possible history of its own payments and of other people's
transactions nothing fails, the node accepts every transaction of the wallet, and its coins are in the ledger, each once, ready to be spent. -/
theorem C115_wallet (H : HashFns) (verify : Bytes → Bytes → Bytes → Bool) (signers : List InternalSigner) (hg : ∀ is ∈ signers, GoodSigner verify is) (es : List WalletEvent) :
    ∀ (W : List WalletCoin) (L : Ledger), Backed (keyHashes H signers) W L → Possible H verify signers W L es →
      ∃ W' bs L', walletRun H signers W es = .ok (W', bs) ∧ bs.length = es.length ∧ NodeAcceptsAll H verify L bs L' ∧ Backed (keyHashes H signers) W' L' := by
  induction es with
  | nil => intro W L hB _; exact ⟨W, [], L, rfl, rfl, rfl, hB⟩
  | cons e es ih =>
    intro W L hB hP
    cases e with
    | pay p =>
      obtain ⟨hp, hP⟩ := hP
      obtain ⟨W1, b, s1, s2⟩ := wallet_pay H verify signers hg hB hp
      obtain ⟨g1, g2, g3⟩ := hP W1 b s1
      obtain ⟨L1, k1, k2⟩ := s2 g1 g2
      obtain ⟨W', bs, L', r1, r2, r3, r4⟩ := ih W1 L1 k2 (g3 L1 k1)
      exact ⟨W', b :: bs, L', by simp only [walletRun, s1, Res.ok_bind, r1]; rfl, by simp [r2], ⟨L1, k1, r3⟩, r4⟩
    | seen b =>
      obtain ⟨L1, k1, hP⟩ := hP
      obtain ⟨W1, s1, k2⟩ := wallet_seen H verify signers hB k1
      obtain ⟨W', bs, L', r1, r2, r3, r4⟩ := ih W1 L1 k2 (hP W1 s1)
      exact ⟨W', b :: bs, L', by simp only [walletRun, s1, Res.ok_bind, r1]; rfl, by simp [r2], ⟨L1, k1, r3⟩, r4⟩

/-! ## Nothing is checked when the payment is made -/

theorem unpayable (H : HashFns) (verify : Bytes → Bytes → Bytes → Bool) (signers : List InternalSigner) (hg : ∀ is ∈ signers, GoodSigner verify is) (L : Ledger)
    (calls : List Call) (hc : ∀ c ∈ calls, PaymentCall L (keyHashes H signers) c) (hlen : calls.length < 2 ^ 31) (hn : ¬ Payable calls) :
    ∃ tx tx', applyCalls Transaction.New calls = .ok (tx, List.replicate calls.length true) ∧ signWithAll H signers tx = .ok tx' ∧ ∀ L', ¬ NodeAccepts H verify L tx'.ToBytes L' := by
  obtain ⟨tx, tx', h1, h2, -, -, h5, -⟩ := C115_payment H verify signers hg L calls hc hlen
  exact ⟨tx, tx', h1, h2, fun L' h => hn (h5.mp ⟨L', h⟩).1⟩

/-- C115 (c), violated: the library checks none of this. Whatever unspent output of a key is taken: spending it twice in one transaction, paying more than it is worth, paying nothing, and spending
nothing, are all built and signed without an error, and no node accepts the result. -/
theorem C115_violated (H : HashFns) (verify : Bytes → Bytes → Bytes → Bool) (is : InternalSigner) (hg : GoodSigner verify is) (L : Ledger) (t : Bytes) (v : UInt32) (sats x : UInt64) (a : Bytes)
    (ht : IsTxId t) (hL : L (outpointOf t v) = some ⟨sats, p2pkh (H.ripemd160 (H.sha256 is.pubKey))⟩) (ha : IsAddressLike a) :
    let spend := Call.fromUtxo t v (hexEncode (p2pkh (H.ripemd160 (H.sha256 is.pubKey)))) sats
    ∀ calls, calls = [spend, spend, .payTo a x] ∨ (sats < x ∧ calls = [spend, .payTo a x]) ∨ calls = [spend] ∨ calls = [.payTo a x] →
      ∃ tx tx', applyCalls Transaction.New calls = .ok (tx, List.replicate calls.length true) ∧ signWithAll H [is] tx = .ok tx' ∧ ∀ L', ¬ NodeAccepts H verify L tx'.ToBytes L' := by
  intro spend calls hcalls
  have hs : PaymentCall L (keyHashes H [is]) spend :=
    ⟨ht, _, List.mem_map.mpr ⟨is, by simp, rfl⟩, (isHexString_iff _).mpr (isHex_encode _), hexDecodeIgnore_encode _, hL⟩
  have hp : PaymentCall L (keyHashes H [is]) (.payTo a x) := ha
  refine unpayable H verify [is] (by simpa using hg) L calls ?_ ?_ ?_
  · rcases hcalls with rfl | ⟨-, rfl⟩ | rfl | rfl <;> simp [hs, hp]
  · rcases hcalls with rfl | ⟨-, rfl⟩ | rfl | rfl <;> simp
  · rintro ⟨p1, p2, p3, -, p5⟩
    rcases hcalls with rfl | ⟨hlt, rfl⟩ | rfl | rfl
    · simp [spend, Call.spent] at p3
    · have : sats.toNat < x.toNat := hlt
      simp [spend, Call.amountIn, Call.amountOut] at p5
      omega
    · simp [spend, Call.outs] at p2
    · simp [Call.spent] at p1

/-! ## The hypotheses are met: a wallet with one coin pays twice, the second time with its change -/

/-- The wallet's coin. -/
def exCoin : WalletCoin := ⟨List.replicate 64 49, 1, hexEncode (p2pkh (toyH.ripemd160 (toyH.sha256 toySigner.pubKey))), 90⟩

/-- The node knows that coin only. -/
def exLedger : Ledger := fun k => if k = exCoin.key then some ⟨90, p2pkh (toyH.ripemd160 (toyH.sha256 toySigner.pubKey))⟩ else none

/-- Twenty to somebody, sixty back, ten for the miner. -/
def exPay1 : Payment := ⟨[exCoin], [((Address.NewFromPublicKeyHash toyH (List.replicate 20 7) true).AddressString, 20), ((Address.NewFromPublicKey toyH toySigner.pubKey true).AddressString, 60)]⟩

/-- The wallet and the bytes after the first payment. -/
def exStep1 : List WalletCoin × Bytes := match walletStep toyH [toySigner] [exCoin] (.pay exPay1) with | .ok r => r | _ => ([], [])

/-- Everything that is left. -/
def exPay2 : Payment := ⟨exStep1.1, [((Address.NewFromPublicKeyHash toyH (List.replicate 20 7) true).AddressString, 55)]⟩

theorem accepts_only {H : HashFns} {verify : Bytes → Bytes → Bytes → Bool} {L L' : Ledger} {b : Bytes} (h : NodeAccepts H verify L b L') {k : Bytes} (hk : ∀ n < 2 ^ 32, k ≠ H.sha256 (H.sha256 b) ++ leBytes 4 n)
    (hn : L k = none) : L' k = none := by
  obtain ⟨h1, -, tx, h3, -, rfl⟩ := h
  unfold Ledger.after
  rcases hlk : (created (H.sha256 (H.sha256 b)) tx).lookup k with _ | c
  · simp only []
    split
    · rfl
    · exact hn
  · obtain ⟨n, hlt, e⟩ := created_mem (mem_of_lookup _ hlk)
    refine absurd e (hk n ?_)
    obtain ⟨ci, bi, co, bo, -, -, -, g4, rfl⟩ := h3
    have := isSeq_length (fun o b (h : IsOutput MinCompactSize o b) => by
      obtain ⟨count, -, rfl⟩ := h
      simp only [List.length_append, leBytes_length]; omega) _ _ g4
    have hmx : maxTxBytes < 2 ^ 32 := by decide
    simp only [List.length_append] at h1
    omega

example : Backed (keyHashes toyH [toySigner]) [exCoin] exLedger ∧ Possible toyH toyVerify [toySigner] [exCoin] exLedger [.pay exPay1, .pay exPay2] := by
  have hk : exCoin.key = List.replicate 32 17 ++ leBytes 4 1 := by decide +kernel
  have hs : walletStep toyH [toySigner] [exCoin] (.pay exPay1) = .ok exStep1 := by
    have : (walletStep toyH [toySigner] [exCoin] (.pay exPay1)).isOk = true := by decide +kernel
    unfold exStep1
    revert this
    cases walletStep toyH [toySigner] [exCoin] (.pay exPay1) <;> simp [Res.isOk]
  have hf1 : exStep1.2.length ≤ maxTxBytes ∧ toyH.sha256 (toyH.sha256 exStep1.2) ≠ List.replicate 32 17 ∧ exStep1.1.length = 1 := by decide +kernel
  have hf2 : (match walletStep toyH [toySigner] exStep1.1 (.pay exPay2) with
      | .ok r => decide (r.2.length ≤ maxTxBytes ∧ toyH.sha256 (toyH.sha256 r.2) ≠ List.replicate 32 17 ∧ toyH.sha256 (toyH.sha256 r.2) ≠ toyH.sha256 (toyH.sha256 exStep1.2))
      | _ => false) = true := by decide +kernel
  have hnone : ∀ b : Bytes, b.length = 32 → b ≠ List.replicate 32 17 → ∀ n, exLedger (b ++ leBytes 4 n) = none := by
    intro b hl hb n
    unfold exLedger
    rw [if_neg]
    rw [hk]
    intro e
    exact hb (List.append_inj_left e (by simp [hl]))
  refine ⟨⟨by simp, ?_⟩, ⟨⟨by simp [exPay1], by simp [exPay1], ?_⟩, ?_, by decide +kernel, by decide +kernel, by decide +kernel⟩, ?_⟩
  · intro w hw
    rw [List.mem_singleton.mp hw]
    exact ⟨by unfold IsTxId; decide +kernel, _, List.mem_map.mpr ⟨toySigner, by simp, rfl⟩, (isHexString_iff _).mpr (isHex_encode _), hexDecodeIgnore_encode _, by simp [exLedger, exCoin]⟩
  · simp [exPay1]
  · exact ⟨by simp [exPay1], by decide +kernel⟩
  · intro W' b hst
    rw [hs] at hst
    injection hst with hst
    obtain ⟨e1, e2⟩ : exStep1.1 = W' ∧ exStep1.2 = b := by rw [hst]; exact ⟨rfl, rfl⟩
    subst e1; subst e2
    refine ⟨hf1.1, fun n _ => hnone _ (toyH.sha256_length _) hf1.2.1 n, fun L' hL' => ⟨⟨⟨?_, ?_, ?_⟩, ?_, ?_, by decide +kernel, by decide +kernel⟩, ?_⟩⟩
    · intro e
      have := hf1.2.2
      rw [show exStep1.1 = [] from e] at this
      cases this
    · show exStep1.1.Nodup
      decide +kernel
    · exact fun w hw => hw
    · exact ⟨by simp [exPay2], by decide +kernel⟩
    · show exStep1.1.length + 1 < 2 ^ 31
      rw [hf1.2.2]; decide
    · intro W2 b2 hst2
      rw [hst2] at hf2
      obtain ⟨g1, g2, g3⟩ := of_decide_eq_true hf2
      refine ⟨g1, fun n _ => accepts_only hL' ?_ (hnone _ (toyH.sha256_length _) g2 n), fun _ _ => trivial⟩
      intro m _ e
      exact g3 (List.append_inj_left e (by simp [toyH.sha256_length]))

end Verif.Props
