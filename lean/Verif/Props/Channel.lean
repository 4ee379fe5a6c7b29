import Verif.Props.LockTime
import Verif.Props.Escrow
/-!
# C142: payment channels: an escrow with a refund that is locked
-/
namespace Verif.Props
open Verif Spec Transaction

/-! ## What can happen to the output -/

theorem spent_stepAt (H : HashFns) (verify : Bytes → Bytes → Bytes → Bool) (height time : Nat) (L L' : Ledger) (b : Bytes) (hb : NodeAcceptsAt H verify height time L b L') (key : Bytes) (c : Coin)
    (hk : L key = some c) :
    L' key = L key ∨ ∃ tx j inp, IsTx MinCompactSize tx b ∧ Final height time tx ∧ tx.Inputs[j]? = some inp ∧ outpoint inp = key ∧ Accepted H verify tx j c.script c.sats := by
  obtain ⟨h1, h2, tx, h3, h4, hf, rfl⟩ := hb
  have hmx : maxTxBytes < 2 ^ 32 := by decide
  by_cases hin : key ∈ tx.Inputs.map outpoint
  · right
    obtain ⟨inp, hm, he⟩ := List.mem_map.mp hin
    obtain ⟨j, hj⟩ := List.mem_iff_getElem?.mp hm
    obtain ⟨c', hc, hacc⟩ := h4.spends j inp hj
    rw [he, hk] at hc
    cases hc
    exact ⟨tx, j, inp, h3, hf, hj, he, hacc⟩
  · left
    unfold Ledger.after
    rcases hlk : (created (H.sha256 (H.sha256 b)) tx).lookup key with _ | c'
    · simp only [if_neg hin]
    · exfalso
      obtain ⟨n, hlt, e⟩ := created_mem (mem_of_lookup _ hlk)
      have hn : n < 2 ^ 32 := by
        obtain ⟨ci, bi, co, bo, -, -, -, g4, rfl⟩ := h3
        have := isSeq_length (fun o b (h : IsOutput MinCompactSize o b) => by
          obtain ⟨count, -, rfl⟩ := h
          simp only [List.length_append, leBytes_length]; omega) _ _ g4
        simp only [List.length_append] at h1
        omega
      rw [e, h2 n hn] at hk
      cases hk

theorem spent_historyAt (H : HashFns) (verify : Bytes → Bytes → Bytes → Bool) (bs : List (Nat × Nat × Bytes)) :
    ∀ (L L' : Ledger), NodeAcceptsAllAt H verify L bs L' → ∀ (key : Bytes) (c : Coin), L key = some c →
      L' key = L key ∨ ∃ x ∈ bs, ∃ tx j inp, IsTx MinCompactSize tx x.2.2 ∧ Final x.1 x.2.1 tx ∧ tx.Inputs[j]? = some inp ∧ outpoint inp = key ∧ Accepted H verify tx j c.script c.sats := by
  induction bs with
  | nil => intro L L' h key c _; exact .inl (by rw [h])
  | cons x bs ih =>
    obtain ⟨height, time, b⟩ := x
    rintro L L' ⟨L1, h1, h2⟩ key c hk
    rcases spent_stepAt H verify height time L L1 b h1 key c hk with he | ⟨tx, j, inp, hx⟩
    · rcases ih L1 L' h2 key c (by rw [he]; exact hk) with h | ⟨b', hb', h⟩
      · exact .inl (h.trans he)
      · exact .inr ⟨b', by simp [hb'], h⟩
    · exact .inr ⟨_, List.mem_cons_self, tx, j, inp, hx⟩

/-- C142 (with lock times): an output that `m` of the owners can spend stays unspent through any history of transactions by anyone, each accepted at a height and time, unless `m` of the owners have each
signed an input that authorises the transaction that spends it and that is not locked at the height and time of that transaction. -/
theorem C142_history (H : HashFns) (verify : Bytes → Bytes → Bytes → Bool) (rs : RedeemScript) (m : Nat) (hr : rs.SignaturesRequired = m) (hm : 1 ≤ m ∧ m ≤ 16)
    (hn : 1 ≤ rs.PublicKeys.length ∧ rs.PublicKeys.length ≤ 16) (hk : ∀ k ∈ rs.PublicKeys, 1 ≤ k.length ∧ k.length ≤ 75)
    (bs : List (Nat × Nat × Bytes)) (L L' : Ledger) (hacc : NodeAcceptsAllAt H verify L bs L') (key : Bytes) (sats : UInt64) (hL : L key = some ⟨sats, (GetRedeemScript rs).1⟩) :
    L' key = L key ∨ ∃ x ∈ bs, ∃ tx j, IsTx MinCompactSize tx x.2.2 ∧ key ∈ tx.Inputs.map outpoint ∧ ∃ who : List Bytes, who.Subperm rs.PublicKeys ∧ who.length = m ∧
      ∀ pub ∈ who, ∀ flag signed, Owner H verify pub flag signed →
        (∃ q ∈ signed, Authorises flag q.1 q.2 tx j ⟨sats, (GetRedeemScript rs).1⟩ ∧ ¬ LockedAt x.1 x.2.1 flag q) ∨
          ∃ q ∈ signed, DigestCollision H flag q.1 q.2 tx j ⟨sats, (GetRedeemScript rs).1⟩ := by
  rcases spent_historyAt H verify bs L L' hacc key _ hL with h | ⟨x, hx, tx, j, inp, h1, hf, h2, h3, h4⟩
  · exact .inl h
  obtain ⟨who, w1, w2, w3⟩ := C141_accepted H verify rs m hr hm hn hk tx (by
    intro o ho
    obtain ⟨ci, bi, co, bo, -, -, -, g4, -⟩ := h1
    obtain ⟨bx, count, hcount, -⟩ := isSeq_mem g4 o ho
    exact (minCompactSize_iff.mp hcount).1) (isTx_wire (isTx_mono h1)).2 j sats h4
  refine .inr ⟨x, hx, tx, j, h1, List.mem_map.mpr ⟨inp, List.mem_of_getElem? h2, h3⟩, who, w1, w2, fun pub hp flag signed ho => ?_⟩
  rcases w3 pub hp flag signed ho with ⟨q, hq, ha⟩ | h
  · exact .inl ⟨q, hq, ha, fun hl => locked_notFinal hl ha hf⟩
  · exact .inr h

/-- C142 (a channel): the output needs both of two keys. Both owners have signed a refund, which is locked through the whole history; the payer has also signed `updates`, the payee has also signed those
inputs in `taken`; with flags of type ALL without ANYONECANPAY. Then through any history of transactions by anyone the output stays unspent, or it is spent by a transaction that pays exactly what one
of the updates pays and exactly what one of the taken transactions pays (or a collision is at hand). -/
theorem C142_channel (H : HashFns) (verify : Bytes → Bytes → Bytes → Bool) (rs : RedeemScript) (hr : rs.SignaturesRequired = (2 : Nat)) (payer payee : Bytes) (hkeys : rs.PublicKeys.Perm [payer, payee])
    (h1 : 1 ≤ payer.length ∧ payer.length ≤ 75) (h2 : 1 ≤ payee.length ∧ payee.length ≤ 75) (flag1 flag2 : UInt8)
    (hf1 : anyoneCanPay flag1 = false ∧ isNone flag1 = false ∧ isSingle flag1 = false) (hf2 : anyoneCanPay flag2 = false ∧ isNone flag2 = false ∧ isSingle flag2 = false)
    (refund : Transaction × Nat) (updates taken : List (Transaction × Nat)) (ho1 : Owner H verify payer flag1 (refund :: updates)) (ho2 : Owner H verify payee flag2 (refund :: taken))
    (bs : List (Nat × Nat × Bytes)) (hlock : ∀ x ∈ bs, LockedAt x.1 x.2.1 flag1 refund ∧ LockedAt x.1 x.2.1 flag2 refund)
    (L L' : Ledger) (hacc : NodeAcceptsAllAt H verify L bs L') (key : Bytes) (sats : UInt64) (hL : L key = some ⟨sats, (GetRedeemScript rs).1⟩) :
    L' key = L key ∨
    (∃ x ∈ bs, ∃ tx, IsTx MinCompactSize tx x.2.2 ∧ key ∈ tx.Inputs.map outpoint ∧ (∃ u ∈ updates, u.1.Outputs = tx.Outputs ∧ u.1.Inputs.map outpoint = tx.Inputs.map outpoint) ∧
      ∃ t ∈ taken, t.1.Outputs = tx.Outputs ∧ t.1.Inputs.map outpoint = tx.Inputs.map outpoint) ∨
    ∃ x ∈ bs, ∃ tx j, IsTx MinCompactSize tx x.2.2 ∧ ((∃ q ∈ refund :: updates, DigestCollision H flag1 q.1 q.2 tx j ⟨sats, (GetRedeemScript rs).1⟩) ∨
      ∃ q ∈ refund :: taken, DigestCollision H flag2 q.1 q.2 tx j ⟨sats, (GetRedeemScript rs).1⟩) := by
  have hlen : rs.PublicKeys.length = 2 := hkeys.length_eq
  rcases C142_history H verify rs 2 hr (by decide) (by omega) (by
    intro k hk
    have := hkeys.mem_iff.mp hk
    simp only [List.mem_cons, List.not_mem_nil, or_false] at this
    rcases this with rfl | rfl
    · exact h1
    · exact h2) bs L L' hacc key sats hL with h | ⟨x, hx, tx, j, g1, g2, who, w1, w2, w3⟩
  · exact .inl h
  right
  have hwho : who.Perm [payer, payee] := (List.Subperm.perm_of_length_le w1 (by omega)).trans hkeys
  have m1 : payer ∈ who := hwho.mem_iff.mpr (by simp)
  have m2 : payee ∈ who := hwho.mem_iff.mpr (by simp)
  rcases w3 payer m1 flag1 _ ho1 with ⟨u, hu, au, lu⟩ | hc
  swap
  · exact .inr ⟨x, hx, tx, j, g1, .inl hc⟩
  rcases w3 payee m2 flag2 _ ho2 with ⟨t, ht, at', lt⟩ | hc
  swap
  · exact .inr ⟨x, hx, tx, j, g1, .inr hc⟩
  refine .inl ⟨x, hx, tx, g1, g2, ⟨u, ?_, (au.outputs hf1.2.1 hf1.2.2).symm, (au.inputs hf1.1).symm⟩, ⟨t, ?_, (at'.outputs hf2.2.1 hf2.2.2).symm, (at'.inputs hf2.1).symm⟩⟩
  · rcases List.mem_cons.mp hu with rfl | hu
    · exact absurd (hlock x hx).1 lu
    · exact hu
  · rcases List.mem_cons.mp ht with rfl | ht
    · exact absurd (hlock x hx).2 lt
    · exact ht

/-- C142 (afterwards): whatever the heights and times, the output is spent only by a transaction that pays what the refund or one of the updates pays: the payer never loses more. -/
theorem C142_payer (H : HashFns) (verify : Bytes → Bytes → Bytes → Bool) (rs : RedeemScript) (hr : rs.SignaturesRequired = (2 : Nat)) (payer payee : Bytes) (hkeys : rs.PublicKeys.Perm [payer, payee])
    (h1 : 1 ≤ payer.length ∧ payer.length ≤ 75) (h2 : 1 ≤ payee.length ∧ payee.length ≤ 75) (flag1 : UInt8)
    (hf1 : anyoneCanPay flag1 = false ∧ isNone flag1 = false ∧ isSingle flag1 = false)
    (refund : Transaction × Nat) (updates : List (Transaction × Nat)) (ho1 : Owner H verify payer flag1 (refund :: updates))
    (bs : List (Nat × Nat × Bytes)) (L L' : Ledger) (hacc : NodeAcceptsAllAt H verify L bs L') (key : Bytes) (sats : UInt64) (hL : L key = some ⟨sats, (GetRedeemScript rs).1⟩) :
    L' key = L key ∨
    (∃ x ∈ bs, ∃ tx, IsTx MinCompactSize tx x.2.2 ∧ key ∈ tx.Inputs.map outpoint ∧ ∃ u ∈ refund :: updates, u.1.Outputs = tx.Outputs ∧ u.1.Inputs.map outpoint = tx.Inputs.map outpoint) ∨
    ∃ x ∈ bs, ∃ tx j, IsTx MinCompactSize tx x.2.2 ∧ ∃ q ∈ refund :: updates, DigestCollision H flag1 q.1 q.2 tx j ⟨sats, (GetRedeemScript rs).1⟩ := by
  have hlen : rs.PublicKeys.length = 2 := hkeys.length_eq
  rcases C142_history H verify rs 2 hr (by decide) (by omega) (by
    intro k hk
    have := hkeys.mem_iff.mp hk
    simp only [List.mem_cons, List.not_mem_nil, or_false] at this
    rcases this with rfl | rfl
    · exact h1
    · exact h2) bs L L' hacc key sats hL with h | ⟨x, hx, tx, j, g1, g2, who, w1, w2, w3⟩
  · exact .inl h
  right
  have hwho : who.Perm [payer, payee] := (List.Subperm.perm_of_length_le w1 (by omega)).trans hkeys
  rcases w3 payer (hwho.mem_iff.mpr (by simp)) flag1 _ ho1 with ⟨u, hu, au, -⟩ | hc
  · exact .inl ⟨x, hx, tx, g1, g2, u, hu, (au.outputs hf1.2.1 hf1.2.2).symm, (au.inputs hf1.1).symm⟩
  · exact .inr ⟨x, hx, tx, j, g1, hc⟩

/-! ## Spending it -/

/-- When a node at some height and time accepts the bytes of a transaction whose inputs the scripts accept. -/
theorem node_acceptsAt_iff (H : HashFns) (verify : Bytes → Bytes → Bytes → Bool) (L : Ledger) (tx : Transaction) (ht : ∀ i ∈ tx.Inputs, IsTxId i.PreviousTxID)
    (hacc : ∀ k inp, tx.Inputs[k]? = some inp → ∃ c, L (outpoint inp) = some c ∧ Accepted H verify tx k c.script c.sats) (height time : Nat) :
    ((∃ L', NodeAcceptsAt H verify height time L tx.ToBytes L') ↔ (tx.Inputs ≠ [] ∧ tx.Outputs ≠ [] ∧ (tx.Inputs.map outpoint).Nodup ∧ valueIn L tx ≤ maxMoney ∧ valueOut tx ≤ valueIn L tx) ∧
      tx.ToBytes.length ≤ maxTxBytes ∧ (∀ n < 2 ^ 32, L (H.sha256 (H.sha256 tx.ToBytes) ++ leBytes 4 n) = none) ∧ Final height time tx) ∧
    ∀ L', NodeAcceptsAt H verify height time L tx.ToBytes L' → L' = L.after (H.sha256 (H.sha256 tx.ToBytes)) tx := by
  have hwo := wire_outpoints tx ht
  have hmx : maxTxBytes < 2 ^ 62 := by decide
  have hvi : valueIn L (wireTx tx) = valueIn L tx := by rw [valueIn_eq, valueIn_eq, hwo]
  have hvo : valueOut (wireTx tx) = valueOut tx := rfl
  have hne : (wireTx tx).Inputs ≠ [] ↔ tx.Inputs ≠ [] := by simp [wireTx]
  have hfin : Final height time (wireTx tx) ↔ Final height time tx := by
    have e : (wireTx tx).Locktime = tx.Locktime := rfl
    have e2 : (∀ i ∈ (wireTx tx).Inputs, i.SequenceNumber = 0xffffffff) ↔ ∀ i ∈ tx.Inputs, i.SequenceNumber = 0xffffffff := by
      simp [wireTx, wireInput]
    unfold Final
    rw [e, e2]
  have hwire : ∀ t, tx.ToBytes.length ≤ maxTxBytes → IsTx MinCompactSize t tx.ToBytes → t = wireTx tx := by
    intro t hl h
    have e1 := (C35_accepts_iff tx.ToBytes [] (by simp; omega) t).mpr (isTx_mono h)
    have e2 := C33_parse_serialise tx ht [] (by simp; omega)
    rw [e1] at e2
    injection e2
  refine ⟨⟨?_, ?_⟩, ?_⟩
  · rintro ⟨L', h1, h2, t, h3, h4, hf, -⟩
    have := hwire t h1 h3
    subst this
    refine ⟨⟨hne.mp h4.inputs, h4.outputs, ?_, ?_, ?_⟩, h1, h2, hfin.mp hf⟩
    · rw [← hwo]; exact h4.distinct
    · rw [← hvi]; exact h4.range.1
    · rw [← hvi, ← hvo]; exact h4.funded
  · rintro ⟨⟨p1, p2, p3, p4, p5⟩, hlenb, hfresh, hf⟩
    refine ⟨_, hlenb, hfresh, wireTx tx, tx_toBytes_isTx tx ht (by omega), ⟨hne.mpr p1, p2, by rw [hwo]; exact p3, ?_, ?_, ?_⟩, hfin.mpr hf, rfl⟩
    · intro k inp hk
      simp only [wireTx, List.getElem?_map, Option.map_eq_some_iff] at hk
      obtain ⟨i', hk', rfl⟩ := hk
      obtain ⟨c, c1, c2⟩ := hacc k i' hk'
      exact ⟨c, by rw [wireInput_outpoint i' (ht i' (List.mem_of_getElem? hk'))]; exact c1, accepted_wire H verify tx ht k _ _ c2⟩
    · rw [hvi, hvo]; exact ⟨p4, by omega⟩
    · rw [hvi, hvo]; exact p5
  · rintro L' ⟨h1, -, t, h3, -, -, rfl⟩
    have := hwire t h1 h3
    subst this
    exact after_congr L _ rfl hwo

/-- C142 (the refund, the updates): `m` of the owners spend the output with a transaction that has any lock time, and any sequence number for the input, which is added with `AddInput`. At every height and
time a node accepts it if and only if something is paid, no more than the output is worth, the transaction is new and not too big, and the lock time is 0 or has passed or the sequence number is
0xffffffff. Afterwards the output is gone and what was agreed is unspent. -/
theorem C142_spend (H : HashFns) (verify : Bytes → Bytes → Bytes → Bool) (rs : RedeemScript) (m : Nat) (hr : rs.SignaturesRequired = m) (hm : 1 ≤ m ∧ m ≤ 16)
    (hn : 1 ≤ rs.PublicKeys.length ∧ rs.PublicKeys.length ≤ 16) (hk : ∀ k ∈ rs.PublicKeys, 1 ≤ k.length ∧ k.length ≤ 75)
    (ss : List InternalSigner) (hg : ∀ is ∈ ss, GoodSigner verify is) (hmany : ss.length = m) (hkeys : (ss.map (·.pubKey)).Subperm rs.PublicKeys) (hord : (ss.map (·.pubKey)).Pairwise lexLe)
    (L : Ledger) (txid : Bytes) (hid : IsTxId txid) (vout : UInt32) (sats : UInt64) (hL : L (outpointOf txid vout) = some ⟨sats, (GetRedeemScript rs).1⟩)
    (outs : List Call) (hout : ∀ c ∈ outs, PaymentCall L [] c) (hlen : outs.length + 1 < 2 ^ 31) (seq T : UInt32) :
    let calls := Call.addInput { PreviousTxID := txid, PreviousTxOutIndex := vout, PreviousTxSatoshis := sats, PreviousTxScript := some (GetRedeemScript rs).1, UnlockingScript := none, SequenceNumber := seq } :: outs
    ∃ tx tx', applyCalls Transaction.New calls = .ok (tx, List.replicate calls.length true) ∧ release H { tx with Locktime := T } 0 ss = .ok tx' ∧ tx'.Outputs = outs.flatMap Call.outs ∧
      (∀ height time, (∃ L', NodeAcceptsAt H verify height time L tx'.ToBytes L') ↔
        (outs ≠ [] ∧ (outs.map Call.amountOut).sum ≤ sats.toNat ∧ sats.toNat ≤ maxMoney) ∧ tx'.ToBytes.length ≤ maxTxBytes ∧
          (∀ n < 2 ^ 32, L (H.sha256 (H.sha256 tx'.ToBytes) ++ leBytes 4 n) = none) ∧
          (T = 0 ∨ (T.toNat < 500000000 ∧ T.toNat < height) ∨ (500000000 ≤ T.toNat ∧ T.toNat < time) ∨ seq = 0xffffffff)) ∧
      ∀ height time L', NodeAcceptsAt H verify height time L tx'.ToBytes L' → L' (outpointOf txid vout) = none ∧
        ∀ n o, (outs.flatMap Call.outs)[n]? = some o → L' (H.sha256 (H.sha256 tx'.ToBytes) ++ leBytes 4 n) = some ⟨o.Satoshis, o.LockingScript⟩ := by
  intro calls
  obtain ⟨R, hR⟩ : ∃ R, (GetRedeemScript rs).1 = R := ⟨_, rfl⟩
  have hins : outs.flatMap Call.ins = [] := by
    rw [List.flatMap_eq_nil_iff]
    intro c hc
    have := hout c hc
    cases c with
    | fromUtxo t v s a => obtain ⟨-, h, hh, -⟩ := this; cases hh
    | addInput i => exact this.elim
    | addOutput o => rfl
    | payTo a s => rfl
  have hw : ∀ c ∈ calls, c.wellFormed := by
    intro c hc
    rcases List.mem_cons.mp hc with rfl | hc
    · trivial
    · have := hout c hc
      cases c with
      | fromUtxo t v s a => obtain ⟨-, h, hh, -⟩ := this; cases hh
      | addInput i => exact this.elim
      | addOutput o => trivial
      | payTo a s => exact this
  have hb := built calls hw
  have hpay := hout
  have hol : ∀ o ∈ outs.flatMap Call.outs, o.LockingScript.length < 2 ^ 64 := payment_outputs hout
  obtain ⟨inp, hinp⟩ : ∃ inp : Input, inp = { PreviousTxID := txid, PreviousTxOutIndex := vout, PreviousTxSatoshis := sats, PreviousTxScript := some R, UnlockingScript := none, SequenceNumber := seq } := ⟨_, rfl⟩
  obtain ⟨tx0, htx0⟩ : ∃ tx : Transaction, tx = { Transaction.New with Inputs := [inp], Outputs := outs.flatMap Call.outs } := ⟨_, rfl⟩
  obtain ⟨tx, htx⟩ : ∃ tx : Transaction, tx = { tx0 with Locktime := T } := ⟨_, rfl⟩
  have hcalls : applyCalls Transaction.New calls = .ok (tx0, List.replicate calls.length true) := by
    rw [hb, htx0, hinp]
    have e1 : calls.flatMap Call.ins = [{ PreviousTxID := txid, PreviousTxOutIndex := vout, PreviousTxSatoshis := sats, PreviousTxScript := some R, UnlockingScript := none, SequenceNumber := seq }] := by
      simp only [calls, List.flatMap_cons, hins, Call.ins, hR, List.append_nil]
    have e2 : calls.flatMap Call.outs = outs.flatMap Call.outs := by
      simp only [calls, List.flatMap_cons, Call.outs, List.nil_append]
    rw [e1, e2]
  have hi1 : tx.Inputs = [inp] := by rw [htx, htx0]
  have ho1 : tx.Outputs = outs.flatMap Call.outs := by rw [htx, htx0]
  have hl1 : tx.Locktime = T := by rw [htx]
  have hRs : R.length < 2 ^ 11 := by rw [← hR]; exact redeem_small rs m hr hn.2 hk
  have houtl := outs_length outs
  have hs : Sized tx := by
    refine ⟨by rw [hi1]; simp, by rw [ho1]; omega, by rw [ho1]; exact hol, ?_⟩
    intro i hi s hsome
    rw [hi1, List.mem_singleton] at hi
    subst hi
    rw [hinp] at hsome
    injection hsome with hsome
    rw [← hsome]; omega
  have hidne : inp.PreviousTxID ≠ [] := by
    rw [hinp]
    intro e
    have := hid.1
    simp only at e
    rw [e] at this
    cases this
  obtain ⟨unl, r1, r2⟩ := C141_release H verify rs m hr hm hn hk ss hg hmany hkeys hord tx hs 0 inp (by rw [hi1]; rfl) hidne (by rw [hinp, hR])
  obtain ⟨tx', htx'⟩ : ∃ tx', tx' = withUnlocking tx (0 : UInt32).toNat unl := ⟨_, rfl⟩
  have hsame : SameButUnlocking tx tx' := by rw [htx']; exact withUnlocking_same tx _ _
  rw [← htx'] at r1 r2
  have hi2 : tx'.Inputs.map outpoint = [outpointOf txid vout] := by
    rw [outpoints_same hsame, hi1, hinp]; rfl
  have ho2 : tx'.Outputs = outs.flatMap Call.outs := by rw [← hsame.2.2.1, ho1]
  have ht2 : ∀ i ∈ tx'.Inputs, IsTxId i.PreviousTxID := txids_same hsame fun i hi => by
    rw [hi1, List.mem_singleton] at hi
    rw [hi, hinp]; exact hid
  have hlen1 : tx'.Inputs.length = 1 := by simpa using congrArg List.length hi2
  have hboth := node_acceptsAt_iff H verify L tx' ht2 (by
    intro k i hki
    have hk0 : k = 0 := by have := (List.getElem?_eq_some_iff.mp hki).1; omega
    subst hk0
    refine ⟨⟨sats, R⟩, ?_, ?_⟩
    · have := congrArg (·[0]?) hi2
      simp only [List.getElem?_map, hki, Option.map_some, List.getElem?_cons_zero, Option.some.injEq] at this
      rw [this, hL, hR]
    · rw [← hR]
      have : inp.PreviousTxSatoshis = sats := by rw [hinp]
      rw [← this]; exact r2)
  have hvi : valueIn L tx' = sats.toNat := by
    rw [valueIn_eq, hi2]
    simp [hL]
  have hvo : valueOut tx' = (outs.map Call.amountOut).sum := by
    show (tx'.Outputs.map (·.Satoshis.toNat)).sum = _
    rw [ho2, payment_valueOut]
  have houts : tx'.Outputs ≠ [] ↔ outs ≠ [] := by
    rw [ho2, not_iff_not, List.flatMap_eq_nil_iff]
    constructor
    · intro h
      rcases outs with _ | ⟨c, cs⟩
      · rfl
      · have h1 := h c (by simp)
        have h2 := hout c (by simp)
        cases c with
        | fromUtxo t v s a => obtain ⟨-, h, hh, -⟩ := h2; cases hh
        | addInput i => exact h2.elim
        | addOutput o => cases h1
        | payTo a s => cases h1
    · rintro rfl; simp
  have hfin : ∀ height time, Final height time tx' ↔ (T = 0 ∨ (T.toNat < 500000000 ∧ T.toNat < height) ∨ (500000000 ≤ T.toNat ∧ T.toNat < time) ∨ seq = 0xffffffff) := by
    intro height time
    have e1 : tx'.Locktime = T := by rw [← hsame.2.1]; exact hl1
    have e2 : (∀ i ∈ tx'.Inputs, i.SequenceNumber = 0xffffffff) ↔ seq = 0xffffffff := by
      have := congrArg (List.map (·.SequenceNumber)) hsame.2.2.2
      simp only [List.map_map, hi1, List.map_cons, List.map_nil] at this
      have hs1 : tx'.Inputs.map (·.SequenceNumber) = [seq] := by rw [hinp] at this; exact this.symm
      have a1 : ∀ l : List Input, (∀ i ∈ l, i.SequenceNumber = 0xffffffff) ↔ ∀ s ∈ l.map (·.SequenceNumber), s = 0xffffffff := by
        intro l; simp
      rw [a1, hs1]; simp
    unfold Final
    rw [e1, e2]
  refine ⟨tx0, tx', hcalls, by rw [← htx]; exact r1, ho2, ?_, ?_⟩
  · intro height time
    rw [(hboth height time).1, hvi, hvo, houts, hi2, hfin]
    have hin : tx'.Inputs ≠ [] := by intro e; rw [e] at hlen1; cases hlen1
    constructor
    · rintro ⟨⟨-, a2, -, a4, a5⟩, a6, a7, a8⟩; exact ⟨⟨a2, a5, a4⟩, a6, a7, a8⟩
    · rintro ⟨⟨a2, a5, a4⟩, a6, a7, a8⟩; exact ⟨⟨hin, a2, by simp, a4, a5⟩, a6, a7, a8⟩
  · intro height time L' hL'
    have hfresh := ((hboth height time).1.mp ⟨L', hL'⟩).2.2.1
    rw [(hboth height time).2 L' hL']
    have hlo : tx'.Outputs.length < 2 ^ 32 := by rw [ho2]; omega
    constructor
    · unfold Ledger.after
      rcases hlk : (created (H.sha256 (H.sha256 tx'.ToBytes)) tx').lookup (outpointOf txid vout) with _ | c
      · simp only [hi2, List.mem_singleton, if_true]
      · exfalso
        obtain ⟨n, hlt, e⟩ := created_mem (mem_of_lookup _ hlk)
        rw [e, hfresh n (by omega)] at hL
        cases hL
    · intro n o hn'
      have hnl := (List.getElem?_eq_some_iff.mp hn').1
      rw [after_output L _ tx' hlo hfresh n (by omega), ho2, hn']
      rfl

/-! ## Examples -/

/-- The input that spends the output, with a sequence number that lets the lock time count. -/
def exRefundInput : Input :=
  { PreviousTxID := List.replicate 64 49, PreviousTxOutIndex := 1, PreviousTxSatoshis := 90, PreviousTxScript := some (GetRedeemScript exTwoOfThree).1, UnlockingScript := none, SequenceNumber := 0 }

/-- What two owners make of a refund that is locked until height 100. -/
def exRefund : Transaction :=
  match applyCalls Transaction.New (.addInput exRefundInput :: exAgreed) with
  | .ok (tx, _) => match release toyH { tx with Locktime := 100 } 0 [exOwner [2, 4], exOwner [3, 9]] with
    | .ok t => t
    | _ => Transaction.New
  | _ => Transaction.New

/-- The node accepts the refund at height 101 and not at height 100. -/
example : (∃ L', NodeAcceptsAt toyH exOwnerVerify 101 0 exEscrow exRefund.ToBytes L' ∧ L' (outpointOf (List.replicate 64 49) 1) = none) ∧
    ¬ ∃ L', NodeAcceptsAt toyH exOwnerVerify 100 0 exEscrow exRefund.ToBytes L' := by
  have hout : ∀ c ∈ exAgreed, PaymentCall exEscrow [] c := by
    intro c hc
    rw [exAgreed, List.mem_singleton] at hc
    subst hc
    show IsAddressLike _
    decide +kernel
  obtain ⟨tx, tx', h1, h2, h3, h4, h5⟩ := C142_spend toyH exOwnerVerify exTwoOfThree 2 rfl (by decide) (by decide) (by decide) [exOwner [2, 4], exOwner [3, 9]]
    (by intro is h; rcases List.mem_cons.mp h with rfl | h
        · exact exOwner_good _ (by simp) (by simp)
        · rw [List.mem_singleton.mp h]; exact exOwner_good _ (by simp) (by simp)) rfl
    (by show List.Subperm [[2, 4], [3, 9]] [[3, 9], [2, 5], [2, 4]]; decide) (by show [[2, 4], [3, 9]].Pairwise lexLe; simp [lexLe]) exEscrow (List.replicate 64 49)
    (by unfold IsTxId; decide +kernel) 1 90 (by simp [exEscrow]) exAgreed hout (by decide) 0 100
  have hx : exRefund = tx' := by
    unfold exRefund exRefundInput
    rw [h1]
    simp only [h2]
  rw [hx]
  have hlen : tx'.ToBytes.length ≤ maxTxBytes := by rw [← hx]; decide +kernel
  have hfresh : ∀ n < 2 ^ 32, exEscrow (toyH.sha256 (toyH.sha256 tx'.ToBytes) ++ leBytes 4 n) = none := by
    intro n _
    unfold exEscrow
    rw [if_neg]
    intro e
    have e1 := congrArg (List.take 1) e
    rw [List.take_append_of_le_length (by rw [toyH.sha256_length]; decide)] at e1
    rw [← hx] at e1
    revert e1
    decide +kernel
  constructor
  · obtain ⟨L', hL'⟩ := (h4 101 0).mpr ⟨⟨by simp [exAgreed], by decide, by decide⟩, hlen, hfresh, .inr (.inl (by decide))⟩
    exact ⟨L', hL', (h5 101 0 L' hL').1⟩
  · intro h
    have := ((h4 100 0).mp h).2.2.2
    revert this
    decide

/-- The channel needs both keys. -/
def exBoth : RedeemScript := { SignaturesRequired := 2, PublicKeys := [[2, 4], [3, 9]], Signatures := [] }

/-- The input that spends the channel's output. -/
def exChanInput : Input := { exRefundInput with PreviousTxScript := some (GetRedeemScript exBoth).1 }

/-- What is locked: the refund pays the 90 back. -/
def exChanRefund : Transaction × Nat := ({ Transaction.New with Locktime := 100, Inputs := [exChanInput], Outputs := [{ Satoshis := 90, LockingScript := [0x51] }] }, 0)

/-- An update pays part of it to the payee. Its version differs too: the digest with the toy hash function depends only on the first bytes. -/
def exChanUpdate : Transaction × Nat :=
  ({ Transaction.New with Version := 2, Inputs := [{ exChanInput with SequenceNumber := 0xffffffff }], Outputs := [{ Satoshis := 30, LockingScript := [0x52] }, { Satoshis := 60, LockingScript := [0x51] }] }, 0)

/-- The digest of the input of one of the two. -/
def exChanDigest (q : Transaction × Nat) : Bytes :=
  toyH.sha256 (toyH.sha256 (preimage (fun b => toyH.sha256 (toyH.sha256 b)) q.1 q.2 (q.1.Inputs.getD q.2 Input.New) (GetRedeemScript exBoth).1 0x41))

/-- The payer has signed both, the payee only the refund. -/
def exChanVerify (pub d s : Bytes) : Bool := exOwnerVerify pub d s && (d == exChanDigest exChanRefund || (pub == [2, 4] && d == exChanDigest exChanUpdate))

theorem exChan_sized : ∀ q ∈ [exChanRefund, exChanUpdate], Sized q.1 ∧ ∀ i ∈ q.1.Inputs, IsTxId i.PreviousTxID := by
  have h : ∀ q ∈ [exChanRefund, exChanUpdate], (q.1.Inputs.length < 2 ^ 31 ∧ q.1.Outputs.length < 2 ^ 32 ∧ ∀ o ∈ q.1.Outputs, o.LockingScript.length < 2 ^ 64) ∧
      (∀ i ∈ q.1.Inputs, (i.PreviousTxScript.getD []).length < 2 ^ 64) ∧ ∀ i ∈ q.1.Inputs, IsTxId i.PreviousTxID := by unfold IsTxId; decide +kernel
  intro q hq
  obtain ⟨⟨h1, h2, h3⟩, h4, h5⟩ := h q hq
  refine ⟨⟨h1, h2, h3, ?_⟩, h5⟩
  intro i hi s hs
  have := h4 i hi
  rwa [hs] at this

/-- The owners are as the theorem asks: the refund is locked up to height 100, the payer has signed one update, the payee none yet. -/
example : exBoth.SignaturesRequired = (2 : Nat) ∧ exBoth.PublicKeys.Perm [[2, 4], [3, 9]] ∧ Owner toyH exChanVerify [2, 4] 0x41 [exChanRefund, exChanUpdate] ∧
    Owner toyH exChanVerify [3, 9] 0x41 [exChanRefund] ∧ (∀ height ≤ 100, LockedAt height 0 0x41 exChanRefund) ∧ ¬ LockedAt 101 0 0x41 exChanRefund ∧ ¬ LockedAt 0 0 0x41 exChanUpdate ∧
    ∃ d s, exChanVerify [2, 4] d s = true ∧ exChanVerify [3, 9] d ([3, 9] ++ d.take 64) = false := by
  refine ⟨rfl, .refl _, ⟨?_, exChan_sized⟩, ⟨?_, fun q hq => exChan_sized q (by rw [List.mem_singleton] at hq; simp [hq])⟩, ?_, ?_, ?_, exChanDigest exChanUpdate, [2, 4] ++ (exChanDigest exChanUpdate).take 64, ?_, ?_⟩
  · intro d s h
    simp only [exChanVerify, Bool.and_eq_true, Bool.or_eq_true, beq_iff_eq] at h
    rcases h.2 with h | ⟨-, h⟩
    · exact ⟨exChanRefund, by simp, exChanRefund.1.Inputs.getD 0 Input.New, _, by decide +kernel, by decide +kernel, h⟩
    · exact ⟨exChanUpdate, by simp, exChanUpdate.1.Inputs.getD 0 Input.New, _, by decide +kernel, by decide +kernel, h⟩
  · intro d s h
    simp only [exChanVerify, Bool.and_eq_true, Bool.or_eq_true, beq_iff_eq] at h
    rcases h.2 with h | ⟨h, -⟩
    · exact ⟨exChanRefund, by simp, exChanRefund.1.Inputs.getD 0 Input.New, _, by decide +kernel, by decide +kernel, h⟩
    · exact absurd h (by decide)
  · intro height hh
    refine ⟨by decide, ?_, by decide, .inl ⟨exChanInput, rfl, by decide⟩⟩
    rintro ⟨-, h⟩
    have : (exChanRefund.1.Locktime).toNat = 100 := rfl
    omega
  · rintro ⟨-, h, -⟩
    exact h (by decide)
  · rintro ⟨h, -⟩
    exact h rfl
  · decide +kernel
  · decide +kernel

/-- Now the payee takes the update: the signature is made for it too. -/
def exTakeVerify (pub d s : Bytes) : Bool := exOwnerVerify pub d s && (d == exChanDigest exChanRefund || d == exChanDigest exChanUpdate)

/-- The unlocking script with both signatures. -/
def exTakenUnlock : Bytes := ([[], [2, 4] ++ (exChanDigest exChanUpdate).take 64 ++ [0x41], [3, 9] ++ (exChanDigest exChanUpdate).take 64 ++ [0x41]] : List Bytes).flatMap push

/-- The update with both signatures. -/
def exTaken : Transaction := { exChanUpdate.1 with Inputs := [{ exChanInput with SequenceNumber := 0xffffffff, UnlockingScript := some exTakenUnlock }] }

/-- The node knows the output of the channel. -/
def exChannel : Ledger := fun k => if k = outpointOf (List.replicate 64 49) 1 then some ⟨90, (GetRedeemScript exBoth).1⟩ else none

/-- All that the theorem asks, with a history that is not empty: the node accepts the update at height 50, and the output is gone. -/
example : Owner toyH exTakeVerify [2, 4] 0x41 [exChanRefund, exChanUpdate] ∧ Owner toyH exTakeVerify [3, 9] 0x41 [exChanRefund, exChanUpdate] ∧
    ∃ L', NodeAcceptsAllAt toyH exTakeVerify exChannel [(50, 0, exTaken.ToBytes)] L' ∧ L' (outpointOf (List.replicate 64 49) 1) ≠ exChannel (outpointOf (List.replicate 64 49) 1) ∧
      ∀ x ∈ [(50, 0, exTaken.ToBytes)], LockedAt x.1 x.2.1 0x41 exChanRefund := by
  have ho : ∀ pub, OnlySigned toyH exTakeVerify pub 0x41 [exChanRefund, exChanUpdate] := by
    intro pub d s h
    simp only [exTakeVerify, Bool.and_eq_true, Bool.or_eq_true, beq_iff_eq] at h
    rcases h.2 with h | h
    · exact ⟨exChanRefund, by simp, exChanRefund.1.Inputs.getD 0 Input.New, _, by decide +kernel, by decide +kernel, h⟩
    · exact ⟨exChanUpdate, by simp, exChanUpdate.1.Inputs.getD 0 Input.New, _, by decide +kernel, by decide +kernel, h⟩
  refine ⟨⟨ho _, exChan_sized⟩, ⟨ho _, exChan_sized⟩, ?_⟩
  have ht : ∀ i ∈ exTaken.Inputs, IsTxId i.PreviousTxID := by unfold IsTxId; decide +kernel
  have hacc : Accepted toyH exTakeVerify exTaken 0 (GetRedeemScript exBoth).1 90 := by
    have hu : (exTaken.Inputs[0]?).map (·.UnlockingScript) =
      some (some (([[], [2, 4] ++ (exChanDigest exChanUpdate).take 64 ++ [0x41], [3, 9] ++ (exChanDigest exChanUpdate).take 64 ++ [0x41]] : List Bytes).flatMap push)) := by decide +kernel
    obtain ⟨inp, hi, hu⟩ := Option.map_eq_some_iff.mp hu
    have hd : (exTaken.Inputs[0]?).map (fun i => toyH.sha256 (toyH.sha256 (preimage (fun b => toyH.sha256 (toyH.sha256 b)) exTaken 0 { i with PreviousTxSatoshis := 90 } (GetRedeemScript exBoth).1 0x41))) =
      some (exChanDigest exChanUpdate) := by decide +kernel
    rw [hi, Option.map_some, Option.some.injEq] at hd
    refine (C86_redeem_iff toyH exTakeVerify exBoth 2 rfl (by decide) (by decide) (by decide) [[2, 4], [3, 9]] (by decide) (by simp [lexLe]) _ 0 90).mpr
      ⟨inp, _, _, hi, hu, (pushes_iff _ _ (by decide +kernel)).mpr rfl, [], [], _, [[2, 4], [3, 9]], rfl, rfl, by decide,
        .cons ⟨_, 0x41, rfl, by decide, ?_⟩ (.cons ⟨_, 0x41, rfl, by decide, ?_⟩ .nil)⟩ <;>
    · rw [hd]; simp [exTakeVerify, exOwnerVerify]
  have hfresh : ∀ n < 2 ^ 32, exChannel (toyH.sha256 (toyH.sha256 exTaken.ToBytes) ++ leBytes 4 n) = none := by
    intro n _
    unfold exChannel
    rw [if_neg]
    intro e
    have e1 := congrArg (List.take 1) e
    rw [List.take_append_of_le_length (by rw [toyH.sha256_length]; decide)] at e1
    revert e1
    decide +kernel
  have hi : exTaken.Inputs.map outpoint = [outpointOf (List.replicate 64 49) 1] := by decide +kernel
  have hvi : valueIn exChannel exTaken = 90 := by
    rw [valueIn_eq, hi]
    simp [exChannel]
  have hvo : valueOut exTaken = 90 := by decide +kernel
  obtain ⟨g1, g2⟩ := node_acceptsAt_iff toyH exTakeVerify exChannel exTaken ht (by
    intro k i hk
    have h1 : exTaken.Inputs.length = 1 := by decide +kernel
    have hk0 : k = 0 := by have := (List.getElem?_eq_some_iff.mp hk).1; omega
    subst hk0
    have := congrArg (·[0]?) hi
    simp only [List.getElem?_map, hk, Option.map_some, List.getElem?_cons_zero, Option.some.injEq] at this
    exact ⟨_, by rw [this]; exact if_pos rfl, hacc⟩) 50 0
  obtain ⟨L', hL'⟩ := g1.mpr ⟨⟨by decide, by decide, by rw [hi]; simp, by rw [hvi]; decide, by rw [hvi, hvo]⟩, by decide +kernel, hfresh, .inl rfl⟩
  refine ⟨L', ⟨L', hL', rfl⟩, ?_, ?_⟩
  · rw [g2 L' hL']
    have e1 : exChannel (outpointOf (List.replicate 64 49) 1) = some ⟨90, (GetRedeemScript exBoth).1⟩ := if_pos rfl
    rw [e1]
    unfold Ledger.after
    rcases hlk : (created (toyH.sha256 (toyH.sha256 exTaken.ToBytes)) exTaken).lookup (outpointOf (List.replicate 64 49) 1) with _ | c
    · simp [hi]
    · obtain ⟨n, hlt, e⟩ := created_mem (mem_of_lookup _ hlk)
      have h2 : exTaken.Outputs.length = 2 := by decide +kernel
      have := hfresh n (by omega)
      rw [← e, e1] at this
      cases this
  · intro x hx
    rw [List.mem_singleton.mp hx]
    refine ⟨by decide, by decide, by decide, .inl ⟨exChanInput, rfl, by decide⟩⟩

end Verif.Props
