import Verif.Spec.LockTime
import Verif.Props.Authorise
import Verif.Props.Joint
/-!
# C138: lock times
-/
namespace Verif.Props
open Verif Spec Transaction

/-- `NodeAccepts` is acceptance whatever the height and time. -/
theorem C138_accepts_iff (H : HashFns) (verify : Bytes → Bytes → Bytes → Bool) (L L' : Ledger) (b : Bytes) :
    NodeAccepts H verify L b L' ↔ ∀ height time, NodeAcceptsAt H verify height time L b L' := by
  constructor
  · rintro ⟨h1, h2, tx, h3, h4, h5⟩ height time
    refine ⟨h1, h2, tx, h3, ⟨h4.inputs, h4.outputs, h4.distinct, h4.spends, h4.range, h4.funded⟩, ?_, h5⟩
    rcases h4.final with h | h
    · exact .inl h
    · exact .inr (.inr (.inr h))
  · intro h
    obtain ⟨h1, h2, tx, h3, h4, hf, h5⟩ := h 0 0
    refine ⟨h1, h2, tx, h3, ⟨h4.inputs, h4.outputs, h4.distinct, h4.spends, h4.range, h4.funded, ?_⟩, h5⟩
    rcases hf with h | h | h | h
    · exact .inl h
    · exact absurd h.2 (Nat.not_lt_zero _)
    · exact absurd h.2 (Nat.not_lt_zero _)
    · exact .inr h

/-- What is known of the inputs. -/
theorem locked_inputs {L : Ledger} {hashes : List Bytes} {calls : List Call} (hc : ∀ c ∈ calls, LockedCall L hashes c) :
    ∀ i ∈ calls.flatMap Call.ins, IsTxId i.PreviousTxID ∧ ∃ h ∈ hashes, i.PreviousTxScript = some (p2pkh h) ∧ L (outpoint i) = some ⟨i.PreviousTxSatoshis, p2pkh h⟩ := by
  intro i hi
  obtain ⟨c, hcm, hic⟩ := List.mem_flatMap.mp hi
  have := hc c hcm
  cases c with
  | fromUtxo t v s sats =>
    simp only [Call.ins, List.mem_singleton] at hic
    subst hic
    obtain ⟨h1, h, hm, -, h2, h3⟩ := this
    refine ⟨h1, ⟨h, hm, by simp [h2], ?_⟩⟩
    simpa [outpoint, outpointOf] using h3
  | addInput i' =>
    simp only [Call.ins, List.mem_singleton] at hic
    subst hic
    exact this
  | addOutput o => simp [Call.ins] at hic
  | payTo a s => simp [Call.ins] at hic

theorem locked_outputs {L : Ledger} {hashes : List Bytes} {calls : List Call} (hc : ∀ c ∈ calls, LockedCall L hashes c) : ∀ o ∈ calls.flatMap Call.outs, o.LockingScript.length < 2 ^ 64 := by
  intro o ho
  obtain ⟨c, hcm, hoc⟩ := List.mem_flatMap.mp ho
  have := hc c hcm
  cases c with
  | fromUtxo t v s sats => simp [Call.outs] at hoc
  | addInput i => simp [Call.outs] at hoc
  | addOutput o' =>
    simp only [Call.outs, List.mem_singleton] at hoc
    subst hoc; exact this
  | payTo a s =>
    simp only [Call.outs, List.mem_singleton] at hoc
    subst hoc
    simp
    omega

theorem locked_wellFormed {L : Ledger} {hashes : List Bytes} {calls : List Call} (hc : ∀ c ∈ calls, LockedCall L hashes c) : ∀ c ∈ calls, c.wellFormed := by
  intro c hcm
  have := hc c hcm
  cases c with
  | fromUtxo t v s sats => obtain ⟨-, h, -, h1, -⟩ := this; exact h1
  | addInput i => trivial
  | addOutput o => trivial
  | payTo a s => exact this

/-- C138 (what a lock time does): take any calls that add unspent outputs of the keys, by `From` or with `AddInput` and any sequence numbers, and outputs; set any lock time, and sign with the
keys. Nothing fails; whoever parses the bytes finds the lock time and the sequence numbers; and at any height and time a node accepts the bytes exactly if the payment is balanced (and the bytes
are not too many and no other transaction has the same hash) and the lock time is 0, or is a height or a time that has passed, or **all** inputs have the sequence number 0xffffffff. -/
theorem C138_locked (H : HashFns) (verify : Bytes → Bytes → Bytes → Bool) (signers : List InternalSigner) (hg : ∀ is ∈ signers, GoodSigner verify is) (L : Ledger)
    (calls : List Call) (hc : ∀ c ∈ calls, LockedCall L (keyHashes H signers) c) (hlen : calls.length < 2 ^ 31) (T : UInt32) :
    ∃ tx tx', applyCalls Transaction.New calls = .ok (tx, List.replicate calls.length true) ∧ signWithAll H signers { tx with Locktime := T } = .ok tx' ∧
      tx'.Outputs = calls.flatMap Call.outs ∧ tx'.Inputs.map outpoint = (calls.flatMap Call.ins).map outpoint ∧
      (tx'.ToBytes.length < 2 ^ 62 → ∃ t, Transaction.NewFromBytes (Slice.exact tx'.ToBytes) = .ok t ∧ t.Locktime = T ∧ t.Inputs.map (·.SequenceNumber) = (calls.flatMap Call.ins).map (·.SequenceNumber)) ∧
      ∀ height time, (∃ L', NodeAcceptsAt H verify height time L tx'.ToBytes L') ↔
        Balanced (calls.flatMap Call.ins) (calls.flatMap Call.outs) ∧ tx'.ToBytes.length ≤ maxTxBytes ∧ (∀ n < 2 ^ 32, L (H.sha256 (H.sha256 tx'.ToBytes) ++ leBytes 4 n) = none) ∧
        (T = 0 ∨ (T.toNat < 500000000 ∧ T.toNat < height) ∨ (500000000 ≤ T.toNat ∧ T.toNat < time) ∨ ∀ i ∈ calls.flatMap Call.ins, i.SequenceNumber = 0xffffffff) := by
  have hb := built calls (locked_wellFormed hc)
  obtain ⟨tx0, htx0⟩ : ∃ tx : Transaction, tx = { Transaction.New with Inputs := calls.flatMap Call.ins, Outputs := calls.flatMap Call.outs } := ⟨_, rfl⟩
  rw [← htx0] at hb
  obtain ⟨tx, htx⟩ : ∃ tx : Transaction, tx = { tx0 with Locktime := T } := ⟨_, rfl⟩
  have hi1 : tx.Inputs = calls.flatMap Call.ins := by rw [htx, htx0]
  have ho1 : tx.Outputs = calls.flatMap Call.outs := by rw [htx, htx0]
  have hlock : tx.Locktime = T := by rw [htx]
  obtain ⟨l1, l2⟩ := ins_length calls
  have hpi := locked_inputs hc
  rw [← hi1] at hpi
  have h20 : ∀ h ∈ keyHashes H signers, h.length = 20 := by
    intro h hm
    obtain ⟨is, -, rfl⟩ := List.mem_map.mp hm
    exact H.ripemd160_length _
  have hs : Sized tx := by
    refine ⟨by rw [hi1]; omega, by rw [ho1]; omega, by rw [ho1]; exact locked_outputs hc, ?_⟩
    intro i hi s hsome
    obtain ⟨-, h, hm, h1, -⟩ := hpi i hi
    rw [h1] at hsome
    injection hsome with hsome
    rw [← hsome]; simp [p2pkh, h20 h hm]
  have hrd : ReadableScripts tx := fun i hi hpan => by
    obtain ⟨-, h, hm, h1, -⟩ := hpi i hi
    rw [h1, p2pkh, C14_getPublicKeyHash _ (h20 h hm)] at hpan
    cases hpan
  obtain ⟨tx', s1, s2, s3⟩ := C70_signed_accepted H verify signers hg tx hs hrd
  have ho' : tx'.Outputs = calls.flatMap Call.outs := by rw [← s2.2.2.1, ho1]
  have hop : tx'.Inputs.map outpoint = (calls.flatMap Call.ins).map outpoint := by rw [outpoints_same s2, hi1]
  have hseq : tx'.Inputs.map (·.SequenceNumber) = (calls.flatMap Call.ins).map (·.SequenceNumber) := by
    have := congrArg (List.map (·.SequenceNumber)) s2.2.2.2
    simp only [List.map_map] at this
    rw [← hi1]
    exact this.symm
  have hlk' : tx'.Locktime = T := by rw [← s2.2.1, hlock]
  have ht' := txids_same s2 fun i hi => (hpi i hi).1
  have hwo := wire_outpoints tx' ht'
  have hws : (wireTx tx').Inputs.map (·.SequenceNumber) = (calls.flatMap Call.ins).map (·.SequenceNumber) := by
    rw [← hseq]
    simp [wireTx, wireInput]
  have hvi : valueIn L (wireTx tx') = ((calls.flatMap Call.ins).map (·.PreviousTxSatoshis.toNat)).sum := by
    rw [valueIn_eq, hwo, hop, List.map_map]
    congr 1
    refine List.map_congr_left fun i hi => ?_
    obtain ⟨-, h, -, -, h2⟩ := hpi i (by rw [hi1]; exact hi)
    simp [h2]
  have hvo : valueOut (wireTx tx') = ((calls.flatMap Call.outs).map (·.Satoshis.toNat)).sum := by
    show (tx'.Outputs.map (·.Satoshis.toNat)).sum = _
    rw [ho']
  have hmx : maxTxBytes < 2 ^ 62 := by decide
  have hwire : ∀ t, tx'.ToBytes.length ≤ maxTxBytes → IsTx MinCompactSize t tx'.ToBytes → t = wireTx tx' := by
    intro t hl h
    have e1 := (C35_accepts_iff tx'.ToBytes [] (by simp; omega) t).mpr (isTx_mono h)
    have e2 := C33_parse_serialise tx' ht' [] (by simp; omega)
    rw [e1] at e2
    injection e2
  have hfin : ∀ height time, Final height time (wireTx tx') ↔
      (T = 0 ∨ (T.toNat < 500000000 ∧ T.toNat < height) ∨ (500000000 ≤ T.toNat ∧ T.toNat < time) ∨ ∀ i ∈ calls.flatMap Call.ins, i.SequenceNumber = 0xffffffff) := by
    intro height time
    have e : (wireTx tx').Locktime = T := hlk'
    have es : (∀ i ∈ (wireTx tx').Inputs, i.SequenceNumber = 0xffffffff) ↔ ∀ i ∈ calls.flatMap Call.ins, i.SequenceNumber = 0xffffffff := by
      have a1 : ∀ l : List Input, (∀ i ∈ l, i.SequenceNumber = 0xffffffff) ↔ ∀ s ∈ l.map (·.SequenceNumber), s = 0xffffffff := by
        intro l; simp
      rw [a1, hws, ← a1]
    unfold Final
    rw [e, es]
  refine ⟨tx0, tx', hb, by rw [← htx]; exact s1, ho', hop, fun hl => ⟨wireTx tx', C33_parse_serialise tx' ht' [] (by simpa using hl), hlk', hws⟩, fun height time => ⟨?_, ?_⟩⟩
  · rintro ⟨L', h1, h2, t, h3, h4, h5, -⟩
    have := hwire t h1 h3
    subst this
    refine ⟨⟨?_, ?_, ?_, ?_, ?_⟩, h1, h2, (hfin height time).mp h5⟩
    · intro e
      apply h4.inputs
      rw [← List.map_eq_nil_iff (f := outpoint), hwo, hop, e]
      rfl
    · have := h4.outputs
      intro e
      exact this (ho'.trans e)
    · have := h4.distinct
      rwa [hwo, hop] at this
    · have := h4.range.1
      rwa [hvi] at this
    · have := h4.funded
      rwa [hvi, hvo] at this
  · rintro ⟨⟨p1, p2, p3, p4, p5⟩, hlenb, hfresh, hf⟩
    refine ⟨_, hlenb, hfresh, wireTx tx', tx_toBytes_isTx tx' ht' (by omega), ⟨?_, ?_, ?_, ?_, ?_, ?_⟩, (hfin height time).mpr hf, rfl⟩
    · intro e
      have : (wireTx tx').Inputs.map outpoint = [] := by rw [e]; rfl
      rw [hwo, hop] at this
      exact p1 (List.map_eq_nil_iff.mp this)
    · intro e
      exact p2 (ho'.symm.trans e)
    · rw [hwo, hop]; exact p3
    · intro k inp hk
      simp only [wireTx, List.getElem?_map, Option.map_eq_some_iff] at hk
      obtain ⟨i', hk', rfl⟩ := hk
      have hlt : k < tx.Inputs.length := by
        have e1 := (List.getElem?_eq_some_iff.mp hk').1
        have := congrArg List.length s2.2.2.2
        simp only [List.length_map] at this
        omega
      obtain ⟨i, hki⟩ : ∃ i, tx.Inputs[k]? = some i := ⟨_, List.getElem?_eq_getElem hlt⟩
      obtain ⟨i'', e1, e2, e3, e4, e5, e6⟩ := input_same_full s2 k i hki
      rw [hk'] at e1; injection e1 with e1; subst e1
      obtain ⟨hid, h, hm, hps, hL⟩ := hpi i (List.mem_of_getElem? hki)
      obtain ⟨is, his, rfl⟩ := List.mem_map.mp hm
      refine ⟨⟨i.PreviousTxSatoshis, p2pkh (H.ripemd160 (H.sha256 is.pubKey))⟩, ?_, accepted_wire H verify tx' ht' k _ _ (s3 is his k i hki ?_ hps)⟩
      · rw [wireInput_outpoint i' (ht' i' (List.mem_of_getElem? hk'))]
        have : outpoint i' = outpoint i := by simp only [outpoint, e2, e3]
        rw [this]; exact hL
      · intro e; have := hid.1; rw [e] at this; simp at this
    · rw [hvi, hvo]; exact ⟨p4, by omega⟩
    · rw [hvi, hvo]; exact p5

theorem payment_locked {L : Ledger} {hashes : List Bytes} {calls : List Call} (hc : ∀ c ∈ calls, PaymentCall L hashes c) : ∀ c ∈ calls, LockedCall L hashes c := by
  intro c hcm
  have := hc c hcm
  cases c with
  | addInput i => exact this.elim
  | fromUtxo t v s sats => exact this
  | addOutput o => exact this
  | payTo a s => exact this

/-- C138 is violated (a lock time locks): a transaction whose coins were added with `From` is accepted at once, whatever lock time is set before signing — for every payment, lock time, height and
time; the lock time is in the bytes all the same. -/
theorem C138_violated (H : HashFns) (verify : Bytes → Bytes → Bytes → Bool) (signers : List InternalSigner) (hg : ∀ is ∈ signers, GoodSigner verify is) (L : Ledger)
    (calls : List Call) (hc : ∀ c ∈ calls, PaymentCall L (keyHashes H signers) c) (hlen : calls.length < 2 ^ 31) (T : UInt32) :
    ∃ tx tx', applyCalls Transaction.New calls = .ok (tx, List.replicate calls.length true) ∧ signWithAll H signers { tx with Locktime := T } = .ok tx' ∧
      (tx'.ToBytes.length < 2 ^ 62 → ∃ t, Transaction.NewFromBytes (Slice.exact tx'.ToBytes) = .ok t ∧ t.Locktime = T) ∧
      (Balanced (calls.flatMap Call.ins) (calls.flatMap Call.outs) → tx'.ToBytes.length ≤ maxTxBytes → (∀ n < 2 ^ 32, L (H.sha256 (H.sha256 tx'.ToBytes) ++ leBytes 4 n) = none) →
        ∀ height time, ∃ L', NodeAcceptsAt H verify height time L tx'.ToBytes L') := by
  obtain ⟨tx, tx', h1, h2, -, -, h5, h6⟩ := C138_locked H verify signers hg L calls (payment_locked hc) hlen T
  refine ⟨tx, tx', h1, h2, fun hl => ?_, fun b1 b2 b3 height time => (h6 height time).mpr ⟨b1, b2, b3, .inr (.inr (.inr ?_))⟩⟩
  · obtain ⟨t, e1, e2, -⟩ := h5 hl
    exact ⟨t, e1, e2⟩
  · intro i hi
    exact (payment_inputs hc i hi).2.2.2

/-! ## A signature on a locked transaction is worth nothing before the lock ends -/

/-- The signed input `k` of `t`, with flag `flag`, is locked at this height and time: the lock time is a height or time that has not passed, and the sequence number of the input — or, where the
flag covers all of them, of some input — is not 0xffffffff. -/
def LockedAt (height time : Nat) (flag : UInt8) (q : Transaction × Nat) : Prop :=
  q.1.Locktime ≠ 0 ∧ ¬ (q.1.Locktime.toNat < 500000000 ∧ q.1.Locktime.toNat < height) ∧ ¬ (500000000 ≤ q.1.Locktime.toNat ∧ q.1.Locktime.toNat < time) ∧
    ((∃ i, q.1.Inputs[q.2]? = some i ∧ i.SequenceNumber ≠ 0xffffffff) ∨
      (anyoneCanPay flag = false ∧ isNone flag = false ∧ isSingle flag = false ∧ ∃ i ∈ q.1.Inputs, i.SequenceNumber ≠ 0xffffffff))

/-- What a locked signature authorises is not final. -/
theorem locked_notFinal {height time : Nat} {flag : UInt8} {q : Transaction × Nat} (hq : LockedAt height time flag q) {tx : Transaction} {j : Nat} {c : Coin} (ha : Authorises flag q.1 q.2 tx j c) :
    ¬ Final height time tx := by
  obtain ⟨h1, h2, h3, h4⟩ := hq
  unfold Final
  rw [ha.locktime]
  rintro (h | h | h | h)
  · exact h1 h
  · exact h2 h
  · exact h3 h
  · rcases h4 with ⟨i, hi, hs⟩ | ⟨f1, f2, f3, i, hi, hs⟩
    · obtain ⟨i1, i2, e1, e2, -, e4, -⟩ := ha.input
      rw [hi] at e2
      injection e2 with e2
      subst e2
      exact hs (e4 ▸ h i1 (List.mem_of_getElem? e1))
    · have e := ha.sequences f1 f2 f3
      have : i.SequenceNumber ∈ tx.Inputs.map (·.SequenceNumber) := by rw [e]; exact List.mem_map.mpr ⟨i, hi, rfl⟩
      obtain ⟨i', hi', e'⟩ := List.mem_map.mp this
      exact hs (e' ▸ h i' hi')

/-- C138 (one transaction): if all that a key has ever signed is locked at this height and time, then no transaction that a node accepts at this height and time spends an output paid to the key,
unless it shows a collision of a hash function. -/
theorem C138_not_before (H : HashFns) (verify : Bytes → Bytes → Bytes → Bool) (pub : Bytes) (flag : UInt8) (signed : List (Transaction × Nat))
    (hsz : ∀ q ∈ signed, Sized q.1 ∧ ∀ i ∈ q.1.Inputs, IsTxId i.PreviousTxID) (honly : OnlySigned H verify pub flag signed) (height time : Nat) (hlock : ∀ q ∈ signed, LockedAt height time flag q)
    (L L' : Ledger) (b : Bytes) (hb : NodeAcceptsAt H verify height time L b L') (key : Bytes) (sats : UInt64) (hk : L key = some ⟨sats, p2pkh (H.ripemd160 (H.sha256 pub))⟩) :
    L' key = L key ∨ ∃ tx j, IsTx MinCompactSize tx b ∧ (KeyCollision H pub tx j ∨ ∃ q ∈ signed, DigestCollision H flag q.1 q.2 tx j ⟨sats, p2pkh (H.ripemd160 (H.sha256 pub))⟩) := by
  obtain ⟨h1, h2, tx, h3, h4, hf, rfl⟩ := hb
  have hmx : maxTxBytes < 2 ^ 32 := by decide
  by_cases hin : key ∈ tx.Inputs.map outpoint
  · right
    obtain ⟨inp, hm, he⟩ := List.mem_map.mp hin
    obtain ⟨j, hj⟩ := List.mem_iff_getElem?.mp hm
    obtain ⟨c, hc, hacc⟩ := h4.spends j inp hj
    rw [he, hk] at hc
    cases hc
    refine ⟨tx, j, h3, ?_⟩
    have hout : ∀ o ∈ tx.Outputs, o.LockingScript.length < 2 ^ 64 := by
      intro o ho
      obtain ⟨ci, bi, co, bo, -, -, -, g4, -⟩ := h3
      obtain ⟨bx, count, hcount, -⟩ := isSeq_mem g4 o ho
      exact (minCompactSize_iff.mp hcount).1
    rcases C117_accepted H verify pub flag signed hsz honly tx hout (isTx_wire (isTx_mono h3)).2 j sats hacc with ⟨q, hq, ha⟩ | h | h
    · exact absurd hf (locked_notFinal (hlock q hq) ha)
    · exact .inl h
    · exact .inr h
  · left
    unfold Ledger.after
    rcases hlk : (created (H.sha256 (H.sha256 b)) tx).lookup key with _ | c
    · simp only [if_neg hin]
    · exfalso
      obtain ⟨n, hlt, e⟩ := created_mem (mem_of_lookup _ hlk)
      have hn : n < 2 ^ 32 := by
        obtain ⟨ci, bi, co, bo, -, -, -, g4, rfl⟩ := h3
        have := isSeq_length (fun o b (h : IsOutput MinCompactSize o b) => by
          obtain ⟨count, -, rfl⟩ := h
          simp only [List.length_append, leBytes_length]; omega) _ _ g4
        simp only [List.length_append] at h1
        omega
      rw [e, h2 n hn] at hk
      cases hk

/-- C138 (a refund): a key has signed only locked transactions. Through any history of transactions of anybody, each accepted at a height and time at which all of them are locked, an output paid to
the key stays unspent, unless one of the transactions shows a collision of a hash function. -/
theorem C138_history (H : HashFns) (verify : Bytes → Bytes → Bytes → Bool) (pub : Bytes) (flag : UInt8) (signed : List (Transaction × Nat))
    (hsz : ∀ q ∈ signed, Sized q.1 ∧ ∀ i ∈ q.1.Inputs, IsTxId i.PreviousTxID) (honly : OnlySigned H verify pub flag signed) :
    ∀ (bs : List (Nat × Nat × Bytes)) (L L' : Ledger), (∀ x ∈ bs, ∀ q ∈ signed, LockedAt x.1 x.2.1 flag q) → NodeAcceptsAllAt H verify L bs L' →
      ∀ (key : Bytes) (sats : UInt64), L key = some ⟨sats, p2pkh (H.ripemd160 (H.sha256 pub))⟩ →
        L' key = L key ∨ ∃ x ∈ bs, ∃ tx j, IsTx MinCompactSize tx x.2.2 ∧
          (KeyCollision H pub tx j ∨ ∃ q ∈ signed, DigestCollision H flag q.1 q.2 tx j ⟨sats, p2pkh (H.ripemd160 (H.sha256 pub))⟩) := by
  intro bs
  induction bs with
  | nil => intro L L' _ h key sats _; exact .inl (by rw [h])
  | cons x bs ih =>
    obtain ⟨h, t, b⟩ := x
    rintro L L' hl ⟨L1, h1, h2⟩ key sats hk
    rcases C138_not_before H verify pub flag signed hsz honly h t (hl (h, t, b) (by simp)) L L1 b h1 key sats hk with he | ⟨tx, j, hx⟩
    · rcases ih L1 L' (fun y hy => hl y (by simp [hy])) h2 key sats (by rw [he]; exact hk) with hh | ⟨y, hy, hh⟩
      · exact .inl (hh.trans he)
      · exact .inr ⟨y, by simp [hy], hh⟩
    · exact .inr ⟨(h, t, b), by simp, tx, j, hx⟩

/-! ## Examples -/

def exLockInput : Input :=
  { PreviousTxID := exCoin.txid, PreviousTxOutIndex := exCoin.vout, PreviousTxSatoshis := 90, UnlockingScript := none, SequenceNumber := 0xfffffffe
    PreviousTxScript := some (p2pkh (toyH.ripemd160 (toyH.sha256 toySigner.pubKey))) }

/-- Ninety, locked until height 800000: with `AddInput` and a sequence number below the highest. -/
def exLock : List Call := [.addInput exLockInput, .payTo (Address.NewFromPublicKeyHash toyH (List.replicate 20 7) true).AddressString 80]

/-- The same with `From`. -/
def exNoLock : List Call := [.fromUtxo exCoin.txid exCoin.vout exCoin.scriptHex exCoin.sats, .payTo (Address.NewFromPublicKeyHash toyH (List.replicate 20 7) true).AddressString 80]

def lockedBytes (calls : List Call) (T : UInt32) : Bytes :=
  match applyCalls Transaction.New calls with
  | .ok r => match signWithAll toyH [toySigner] { r.1 with Locktime := T } with
    | .ok t => t.ToBytes
    | _ => []
  | _ => []

theorem exCoin_known : ∃ h ∈ keyHashes toyH [toySigner], IsHexString exCoin.scriptHex ∧ hexDecodeIgnore exCoin.scriptHex = p2pkh h ∧ exLedger exCoin.key = some ⟨exCoin.sats, p2pkh h⟩ :=
  ⟨_, List.mem_map.mpr ⟨toySigner, by simp, rfl⟩, (isHexString_iff _).mpr (isHex_encode _), hexDecodeIgnore_encode _, by simp [exLedger, exCoin]⟩

theorem exLedger_fresh (b : Bytes) (h : toyH.sha256 (toyH.sha256 b) ≠ List.replicate 32 17) : ∀ n < 2 ^ 32, exLedger (toyH.sha256 (toyH.sha256 b) ++ leBytes 4 n) = none := by
  intro n _
  have hk : exCoin.key = List.replicate 32 17 ++ leBytes 4 1 := by decide +kernel
  unfold exLedger
  rw [if_neg]
  rw [hk]
  intro e
  exact h (List.append_inj_left e (by simp [toyH.sha256_length]))

/-- Locked at height 800000 and before, accepted from 800001 on. -/
example : ∀ height time, (∃ L', NodeAcceptsAt toyH toyVerify height time exLedger (lockedBytes exLock 800000) L') ↔ 800000 < height := by
  have hc : ∀ c ∈ exLock, LockedCall exLedger (keyHashes toyH [toySigner]) c := by
    intro c hm
    simp only [exLock, List.mem_cons, List.not_mem_nil, or_false] at hm
    rcases hm with rfl | rfl
    · refine ⟨by unfold IsTxId; decide +kernel, _, List.mem_map.mpr ⟨toySigner, by simp, rfl⟩, rfl, ?_⟩
      have : outpoint exLockInput = exCoin.key := by decide +kernel
      rw [this]
      simp [exLedger, exLockInput]
    · exact show IsAddressLike _ by decide +kernel
  intro height time
  obtain ⟨tx, tx', h1, h2, -, -, -, h6⟩ := C138_locked toyH toyVerify [toySigner] (by simpa using toySigner_good) exLedger exLock hc (by decide) 800000
  have e : lockedBytes exLock 800000 = tx'.ToBytes := by
    unfold lockedBytes
    rw [h1]
    show (match signWithAll toyH [toySigner] { tx with Locktime := 800000 } with | .ok t => t.ToBytes | _ => []) = _
    rw [h2]
  have hf : (lockedBytes exLock 800000).length ≤ maxTxBytes ∧ toyH.sha256 (toyH.sha256 (lockedBytes exLock 800000)) ≠ List.replicate 32 17 := by decide +kernel
  rw [e] at hf ⊢
  rw [h6]
  constructor
  · rintro ⟨-, -, -, h | h | h | h⟩
    · exact absurd h (by decide)
    · exact h.2
    · exact absurd h.1 (by decide)
    · exact absurd (h _ (by simp [exLock, Call.ins]; rfl)) (by decide)
  · intro h
    exact ⟨⟨by simp [exLock, Call.ins], by simp [exLock, Call.outs], by simp [exLock, Call.ins], by decide +kernel, by decide +kernel⟩, hf.1, exLedger_fresh _ hf.2, .inr (.inl ⟨by decide, h⟩)⟩

/-- The same payment with `From`: accepted at height 1. -/
example : ∃ L', NodeAcceptsAt toyH toyVerify 1 1 exLedger (lockedBytes exNoLock 800000) L' := by
  have hc : ∀ c ∈ exNoLock, PaymentCall exLedger (keyHashes toyH [toySigner]) c := by
    intro c hm
    simp only [exNoLock, List.mem_cons, List.not_mem_nil, or_false] at hm
    rcases hm with rfl | rfl
    · exact ⟨by unfold IsTxId; decide +kernel, exCoin_known⟩
    · exact show IsAddressLike _ by decide +kernel
  obtain ⟨tx, tx', h1, h2, -, h6⟩ := C138_violated toyH toyVerify [toySigner] (by simpa using toySigner_good) exLedger exNoLock hc (by decide) 800000
  have e : lockedBytes exNoLock 800000 = tx'.ToBytes := by
    unfold lockedBytes
    rw [h1]
    show (match signWithAll toyH [toySigner] { tx with Locktime := 800000 } with | .ok t => t.ToBytes | _ => []) = _
    rw [h2]
  have hf : (lockedBytes exNoLock 800000).length ≤ maxTxBytes ∧ toyH.sha256 (toyH.sha256 (lockedBytes exNoLock 800000)) ≠ List.replicate 32 17 := by decide +kernel
  rw [e] at hf ⊢
  exact h6 ⟨by simp [exNoLock, Call.ins], by simp [exNoLock, Call.outs], by simp [exNoLock, Call.ins], by decide +kernel, by decide +kernel⟩ hf.1 (exLedger_fresh _ hf.2) 1 1

/-- The locked payment before it is signed. -/
def exLockUnsigned : Transaction := match applyCalls Transaction.New exLock with | .ok (t, _) => { t with Locktime := 800000 } | _ => Transaction.New

/-- The digest that was signed. -/
def exLockDigest : Bytes :=
  toyH.sha256 (toyH.sha256 (preimage (fun b => toyH.sha256 (toyH.sha256 b)) exLockUnsigned 0 (exLockUnsigned.Inputs.getD 0 Input.New) (p2pkh (toyH.ripemd160 (toyH.sha256 toySigner.pubKey))) 0x41))

/-- The first key has signed nothing else; the second key signs as it likes. -/
def exLockVerify (pub d s : Bytes) : Bool := (toyVerify pub d s && d == exLockDigest) || (pub == toySigner2.pubKey && s == d.take 5)

/-- What the second key pays. -/
def exOtherCalls : List Call := [
  .fromUtxo (List.replicate 64 50) 0 (hexEncode (p2pkh (toyH.ripemd160 (toyH.sha256 toySigner2.pubKey)))) 60,
  .payTo (Address.NewFromPublicKeyHash toyH (List.replicate 20 7) true).AddressString 55]

/-- The hypotheses of `C138_history`: the coin of the first key is there, the key has signed the locked payment only, which is locked at height 500, where the payment of the second key is
accepted. -/
example : OnlySigned toyH exLockVerify toySigner.pubKey 0x41 [(exLockUnsigned, 0)] ∧ (∀ q ∈ [(exLockUnsigned, 0)], Sized q.1 ∧ ∀ i ∈ q.1.Inputs, IsTxId i.PreviousTxID) ∧
    (∃ b L', (∀ x ∈ [(500, 1600000000, b)], ∀ q ∈ [(exLockUnsigned, 0)], LockedAt x.1 x.2.1 0x41 q) ∧ NodeAcceptsAllAt toyH exLockVerify exJointLedger [(500, 1600000000, b)] L') ∧
    exJointLedger exCoin.key = some ⟨90, p2pkh (toyH.ripemd160 (toyH.sha256 toySigner.pubKey))⟩ := by
  refine ⟨?_, ?_, ?_, ?_⟩
  · intro d s h
    have hne : (toySigner.pubKey == toySigner2.pubKey) = false := by decide +kernel
    simp only [exLockVerify, hne, Bool.false_and, Bool.or_false, Bool.and_eq_true, beq_iff_eq] at h
    exact ⟨(exLockUnsigned, 0), by simp, exLockUnsigned.Inputs.getD 0 Input.New, _, by decide +kernel, by decide +kernel, h.2⟩
  · intro q hq
    simp only [List.mem_singleton] at hq
    subst hq
    have e : exLockUnsigned.Inputs = [exLockInput] := by decide +kernel
    have l : exLockUnsigned.Outputs.length = 1 ∧ ∀ o ∈ exLockUnsigned.Outputs, o.LockingScript.length < 2 ^ 64 := by decide +kernel
    have l2 : ∀ s, exLockInput.PreviousTxScript = some s → s.length < 2 ^ 64 := by
      intro s h
      simp only [exLockInput, Option.some.injEq] at h
      subst h
      decide +kernel
    refine ⟨⟨by simp [e], by simp [l.1], l.2, by simpa [e] using l2⟩, ?_⟩
    simp only [e, List.mem_singleton]
    rintro i rfl
    unfold IsTxId
    decide +kernel
  · have hg : GoodSigner exLockVerify toySigner2 := by
      have h := toySigners_good toySigner2 (by simp)
      exact ⟨h.1, h.2.1, fun d => ⟨d.take 5, rfl, by simp [exLockVerify]⟩⟩
    have hc : ∀ c ∈ exOtherCalls, PaymentCall exJointLedger (keyHashes toyH [toySigner2]) c := by
      intro c hm
      simp only [exOtherCalls, List.mem_cons, List.not_mem_nil, or_false] at hm
      rcases hm with rfl | rfl
      · refine ⟨by unfold IsTxId; decide +kernel, _, List.mem_map.mpr ⟨toySigner2, by simp, rfl⟩, (isHexString_iff _).mpr (isHex_encode _), hexDecodeIgnore_encode _, ?_⟩
        have : outpointOf (List.replicate 64 50) 0 ≠ outpointOf (List.replicate 64 49) 1 := by decide +kernel
        unfold exJointLedger
        rw [if_neg this, if_pos rfl]
      · exact show IsAddressLike _ by decide +kernel
    obtain ⟨tx, tx', h1, h2, -, h6⟩ := C138_violated toyH exLockVerify [toySigner2] (by simpa using hg) exJointLedger exOtherCalls hc (by decide) 0
    have e : tx'.ToBytes = match applyCalls Transaction.New exOtherCalls with
        | .ok r => match signWithAll toyH [toySigner2] { r.1 with Locktime := 0 } with | .ok t => t.ToBytes | _ => []
        | _ => [] := by
      rw [h1]
      show _ = (match signWithAll toyH [toySigner2] { tx with Locktime := 0 } with | .ok t => t.ToBytes | _ => [])
      rw [h2]
    have hf : tx'.ToBytes.length ≤ maxTxBytes ∧ toyH.sha256 (toyH.sha256 tx'.ToBytes) ≠ List.replicate 32 17 ∧ toyH.sha256 (toyH.sha256 tx'.ToBytes) ≠ List.replicate 32 34 := by
      rw [e]; decide +kernel
    have hk1 : outpointOf (List.replicate 64 49) 1 = List.replicate 32 17 ++ leBytes 4 1 := by decide
    have hk2 : outpointOf (List.replicate 64 50) 0 = List.replicate 32 34 ++ leBytes 4 0 := by decide
    obtain ⟨L', h⟩ := h6 ⟨by simp [exOtherCalls, Call.ins], by simp [exOtherCalls, Call.outs], by simp [exOtherCalls, Call.ins], by decide +kernel, by decide +kernel⟩ hf.1 (by
      intro n _
      unfold exJointLedger
      rw [hk1, hk2, if_neg, if_neg]
      · intro e; exact hf.2.2 (List.append_inj_left e (by simp [toyH.sha256_length]))
      · intro e; exact hf.2.1 (List.append_inj_left e (by simp [toyH.sha256_length]))) 500 1600000000
    refine ⟨tx'.ToBytes, L', ?_, L', h, rfl⟩
    intro x hx q hq
    simp only [List.mem_singleton] at hx hq
    subst hx hq
    have e : exLockUnsigned.Locktime ≠ 0 ∧ ¬ (exLockUnsigned.Locktime.toNat < 500000000 ∧ exLockUnsigned.Locktime.toNat < 500) ∧
        ¬ (500000000 ≤ exLockUnsigned.Locktime.toNat ∧ exLockUnsigned.Locktime.toNat < 1600000000) := by decide +kernel
    refine ⟨e.1, e.2.1, e.2.2, .inl ⟨exLockInput, by decide +kernel, by decide⟩⟩
  · have : exCoin.key = outpointOf (List.replicate 64 49) 1 := by decide
    simp [exJointLedger, this]

end Verif.Props
