import Verif.Spec.Versions
import Verif.Props.Authorise
import Verif.Props.TxIdChange
import Verif.Props.LockTime
/-!
# C139: versions of one payment
-/
namespace Verif.Props
open Verif Spec Transaction

/-- What the outputs of a transaction are in a ledger in which its hash is new. -/
theorem after_output (L : Ledger) (id : Bytes) (tx : Transaction) (hl : tx.Outputs.length < 2 ^ 32) (hfresh : ∀ n < 2 ^ 32, L (id ++ leBytes 4 n) = none) (n : Nat) (hn : n < 2 ^ 32) :
    L.after id tx (id ++ leBytes 4 n) = (tx.Outputs[n]?).map fun o => ⟨o.Satoshis, o.LockingScript⟩ := by
  unfold Ledger.after
  rcases ho : tx.Outputs[n]? with _ | o
  · rcases hlk : (created id tx).lookup (id ++ leBytes 4 n) with _ | c
    · simp only [hfresh n hn, ite_self, Option.map_none]
    · exfalso
      obtain ⟨m, hm, e⟩ := created_mem (mem_of_lookup _ hlk)
      have := leBytes4_inj hn (by omega) (List.append_cancel_left e)
      subst this
      rw [List.getElem?_eq_getElem hm] at ho
      cases ho
  · rw [lookup_of_mem _ (created_nodup id tx hl) (b := ⟨o.Satoshis, o.LockingScript⟩)]
    · rfl
    · obtain ⟨hlt, e⟩ := List.getElem?_eq_some_iff.mp ho
      exact List.mem_mapIdx.mpr ⟨n, hlt, by rw [e]⟩

/-- What is not an output of the transaction. -/
theorem after_other (L : Ledger) (id : Bytes) (tx : Transaction) (hl : tx.Outputs.length < 2 ^ 32) (key : Bytes) (hk : ∀ n < 2 ^ 32, key ≠ id ++ leBytes 4 n) :
    L.after id tx key = if key ∈ tx.Inputs.map outpoint then none else L key := by
  unfold Ledger.after
  rcases hlk : (created id tx).lookup key with _ | c
  · rfl
  · obtain ⟨m, hm, e⟩ := created_mem (mem_of_lookup _ hlk)
    exact absurd e (hk m (by omega))

/-- The same transaction under two hashes. -/
theorem renamed_after (L : Ledger) (id₁ id₂ : Bytes) (h1 : id₁.length = 32) (h2 : id₂.length = 32) (tx : Transaction) (hl : tx.Outputs.length < 2 ^ 32)
    (f1 : ∀ n < 2 ^ 32, L (id₁ ++ leBytes 4 n) = none) (f2 : ∀ n < 2 ^ 32, L (id₂ ++ leBytes 4 n) = none) : Renamed id₁ id₂ (L.after id₁ tx) (L.after id₂ tx) := by
  refine ⟨fun n hn => ?_, fun hne n hn => ⟨?_, ?_⟩, fun key hk => ?_⟩
  · rw [after_output L id₁ tx hl f1 n hn, after_output L id₂ tx hl f2 n hn]
  · rw [after_other L id₂ tx hl, f1 n hn, ite_self]
    intro m _ e
    exact hne (List.append_inj_left e (by rw [h1, h2]))
  · rw [after_other L id₁ tx hl, f2 n hn, ite_self]
    intro m _ e
    exact hne (List.append_inj_left e (by rw [h1, h2])).symm
  · rw [after_other L id₁ tx hl key fun n hn => (hk n hn).1, after_other L id₂ tx hl key fun n hn => (hk n hn).2]

theorem isTx_outputs {tx : Transaction} {b : Bytes} (h : IsTx MinCompactSize tx b) : tx.Outputs.length ≤ b.length := by
  obtain ⟨ci, bi, co, bo, -, -, -, g4, rfl⟩ := h
  have := isSeq_length (fun o b (h : IsOutput MinCompactSize o b) => by
    obtain ⟨count, -, rfl⟩ := h
    simp only [List.length_append, leBytes_length]; omega) _ _ g4
  simp only [List.length_append]; omega

/-- An output that is there before and not after is spent. -/
theorem spent_of_changed {H : HashFns} {verify : Bytes → Bytes → Bytes → Bool} {L L' : Ledger} {b : Bytes} (h : NodeAccepts H verify L b L') {key : Bytes} (hk : L key ≠ none) (hne : L' key ≠ L key)
    {tx : Transaction} (ht : IsTx MinCompactSize tx b) : key ∈ tx.Inputs.map outpoint := by
  obtain ⟨h1, h2, t, h3, -, rfl⟩ := h
  have := isTx_unique h3 ht
  subst this
  have hmx : maxTxBytes < 2 ^ 32 := by decide
  have hlo := isTx_outputs h3
  by_contra hin
  apply hne
  rw [after_other L _ t (by omega), if_neg hin]
  intro n hn e
  exact hk (e ▸ h2 n hn)

/-- C139 (whatever version): a key has signed, with the flag ALL, inputs of the transactions in `signed` only. If a node accepts any transaction that spends an output of the key — whoever made
it — then the unspent outputs afterwards are as after one of these transactions, under the hash of the bytes that were accepted, or there is a collision of a hash function. -/
theorem C139_outcome (H : HashFns) (verify : Bytes → Bytes → Bytes → Bool) (pub : Bytes) (flag : UInt8) (hf : anyoneCanPay flag = false ∧ isNone flag = false ∧ isSingle flag = false)
    (signed : List (Transaction × Nat)) (hsz : ∀ q ∈ signed, Sized q.1 ∧ ∀ i ∈ q.1.Inputs, IsTxId i.PreviousTxID) (honly : OnlySigned H verify pub flag signed)
    (L L' : Ledger) (b : Bytes) (hb : NodeAccepts H verify L b L') (key : Bytes) (sats : UInt64) (hk : L key = some ⟨sats, p2pkh (H.ripemd160 (H.sha256 pub))⟩) (hne : L' key ≠ L key) :
    (∃ q ∈ signed, L' = L.after (H.sha256 (H.sha256 b)) q.1) ∨
      ∃ tx j, IsTx MinCompactSize tx b ∧ (KeyCollision H pub tx j ∨ ∃ q ∈ signed, DigestCollision H flag q.1 q.2 tx j ⟨sats, p2pkh (H.ripemd160 (H.sha256 pub))⟩) := by
  rcases C117_step H verify pub flag signed hsz honly L L' b hb key sats hk with h | ⟨tx, j, inp, h1, -, -, h | h⟩
  · exact absurd h hne
  · obtain ⟨q, hq, ha⟩ := h
    left
    refine ⟨q, hq, ?_⟩
    obtain ⟨-, -, t, h3, -, e⟩ := hb
    have := isTx_unique h3 h1
    subst this
    rw [e]
    exact after_congr L _ (ha.outputs hf.2.1 hf.2.2) (ha.inputs hf.1)
  · exact .inr ⟨tx, j, h1, h⟩

/-- C139 (two versions): if the key has signed inputs of one transaction only, then after any two transactions that a node could accept next and that spend outputs of the key, it has the same
unspent outputs, each under its own hash. -/
theorem C139_versions (H : HashFns) (verify : Bytes → Bytes → Bytes → Bool) (pub : Bytes) (flag : UInt8) (hf : anyoneCanPay flag = false ∧ isNone flag = false ∧ isSingle flag = false)
    (t : Transaction) (ks : List Nat) (hsz : Sized t ∧ ∀ i ∈ t.Inputs, IsTxId i.PreviousTxID) (honly : OnlySigned H verify pub flag (ks.map fun k => (t, k)))
    (L L₁ L₂ : Ledger) (b₁ b₂ : Bytes) (hb₁ : NodeAccepts H verify L b₁ L₁) (hb₂ : NodeAccepts H verify L b₂ L₂) (key₁ key₂ : Bytes) (sats₁ sats₂ : UInt64)
    (hk₁ : L key₁ = some ⟨sats₁, p2pkh (H.ripemd160 (H.sha256 pub))⟩) (hk₂ : L key₂ = some ⟨sats₂, p2pkh (H.ripemd160 (H.sha256 pub))⟩) (hne₁ : L₁ key₁ ≠ L key₁) (hne₂ : L₂ key₂ ≠ L key₂) :
    Renamed (H.sha256 (H.sha256 b₁)) (H.sha256 (H.sha256 b₂)) L₁ L₂ ∨
      ∃ b ∈ [b₁, b₂], ∃ tx j sats, IsTx MinCompactSize tx b ∧
        (KeyCollision H pub tx j ∨ ∃ k ∈ ks, DigestCollision H flag t k tx j ⟨sats, p2pkh (H.ripemd160 (H.sha256 pub))⟩) := by
  have hmap : ∀ q ∈ ks.map (fun k => (t, k)), q.1 = t ∧ q.2 ∈ ks := by
    intro q hq
    obtain ⟨k, hk, rfl⟩ := List.mem_map.mp hq
    exact ⟨rfl, hk⟩
  have hsz' : ∀ q ∈ ks.map (fun k => (t, k)), Sized q.1 ∧ ∀ i ∈ q.1.Inputs, IsTxId i.PreviousTxID := by
    intro q hq
    rw [(hmap q hq).1]; exact hsz
  rcases C139_outcome H verify pub flag hf _ hsz' honly L L₁ b₁ hb₁ key₁ sats₁ hk₁ hne₁ with ⟨q, hq, e1⟩ | ⟨tx, j, h1, h2⟩
  · rcases C139_outcome H verify pub flag hf _ hsz' honly L L₂ b₂ hb₂ key₂ sats₂ hk₂ hne₂ with ⟨r, hr, e2⟩ | ⟨tx, j, h1, h2⟩
    · rw [(hmap q hq).1] at e1
      rw [(hmap r hr).1] at e2
      left
      rw [e1, e2]
      exact renamed_after L _ _ (H.sha256_length _) (H.sha256_length _) t hsz.1.2.1 hb₁.2.1 hb₂.2.1
    · right
      refine ⟨b₂, by simp, tx, j, sats₂, h1, h2.imp_right ?_⟩
      rintro ⟨q, hq, h⟩
      have := hmap q hq
      exact ⟨q.2, this.2, this.1 ▸ h⟩
  · right
    refine ⟨b₁, by simp, tx, j, sats₁, h1, h2.imp_right ?_⟩
    rintro ⟨q, hq, h⟩
    have := hmap q hq
    exact ⟨q.2, this.2, this.1 ▸ h⟩

/-- What the key has authorised with the flag ALL is final exactly if the transaction that was signed is. -/
theorem authorised_final {flag : UInt8} (hf : anyoneCanPay flag = false ∧ isNone flag = false ∧ isSingle flag = false) {t : Transaction} {k : Nat} {tx : Transaction} {j : Nat} {c : Coin}
    (ha : Authorises flag t k tx j c) (height time : Nat) : Final height time tx ↔ Final height time t := by
  have hs : (∀ i ∈ tx.Inputs, i.SequenceNumber = 0xffffffff) ↔ ∀ i ∈ t.Inputs, i.SequenceNumber = 0xffffffff := by
    have a1 : ∀ l : List Input, (∀ i ∈ l, i.SequenceNumber = 0xffffffff) ↔ ∀ s ∈ l.map (·.SequenceNumber), s = 0xffffffff := by
      intro l; simp
    rw [a1, a1, ha.sequences hf.1 hf.2.1 hf.2.2]
  unfold Final
  rw [ha.locktime, hs]

/-- C139 (with lock times): the same at any height and time, where the signed transaction that the accepted one is a version of is final. Of several transactions that a key has signed, some locked
and some not, only those take effect that are final then. -/
theorem C139_final (H : HashFns) (verify : Bytes → Bytes → Bytes → Bool) (pub : Bytes) (flag : UInt8) (hf : anyoneCanPay flag = false ∧ isNone flag = false ∧ isSingle flag = false)
    (signed : List (Transaction × Nat)) (hsz : ∀ q ∈ signed, Sized q.1 ∧ ∀ i ∈ q.1.Inputs, IsTxId i.PreviousTxID) (honly : OnlySigned H verify pub flag signed) (height time : Nat)
    (L L' : Ledger) (b : Bytes) (hb : NodeAcceptsAt H verify height time L b L') (key : Bytes) (sats : UInt64) (hk : L key = some ⟨sats, p2pkh (H.ripemd160 (H.sha256 pub))⟩) :
    L' key = L key ∨ (∃ q ∈ signed, Final height time q.1 ∧ key ∈ q.1.Inputs.map outpoint ∧ L' = L.after (H.sha256 (H.sha256 b)) q.1) ∨
      ∃ tx j, IsTx MinCompactSize tx b ∧ (KeyCollision H pub tx j ∨ ∃ q ∈ signed, DigestCollision H flag q.1 q.2 tx j ⟨sats, p2pkh (H.ripemd160 (H.sha256 pub))⟩) := by
  obtain ⟨h1, h2, tx, h3, h4, hfin, rfl⟩ := hb
  have hmx : maxTxBytes < 2 ^ 32 := by decide
  by_cases hin : key ∈ tx.Inputs.map outpoint
  · right
    obtain ⟨inp, hm, he⟩ := List.mem_map.mp hin
    obtain ⟨j, hj⟩ := List.mem_iff_getElem?.mp hm
    obtain ⟨c, hc, hacc⟩ := h4.spends j inp hj
    rw [he, hk] at hc
    cases hc
    have hout : ∀ o ∈ tx.Outputs, o.LockingScript.length < 2 ^ 64 := by
      intro o ho
      obtain ⟨ci, bi, co, bo, -, -, -, g4, -⟩ := h3
      obtain ⟨bx, count, hcount, -⟩ := isSeq_mem g4 o ho
      exact (minCompactSize_iff.mp hcount).1
    rcases C117_accepted H verify pub flag signed hsz honly tx hout (isTx_wire (isTx_mono h3)).2 j sats hacc with ⟨q, hq, ha⟩ | h | h
    · exact .inl ⟨q, hq, (authorised_final hf ha height time).mp hfin, by rw [← ha.inputs hf.1]; exact hin, after_congr L _ (ha.outputs hf.2.1 hf.2.2) (ha.inputs hf.1)⟩
    · exact .inr ⟨tx, j, h3, .inl h⟩
    · exact .inr ⟨tx, j, h3, .inr h⟩
  · left
    have hlo := isTx_outputs h3
    rw [after_other L _ tx (by omega), if_neg hin]
    intro n hn e
    rw [e, h2 n hn] at hk
    cases hk

/-- C139 (anybody can make one): from the bytes of a transaction that a node would accept and that spends a pay-to-public-key-hash output, anybody makes other bytes, without any key: parse them, set
the unlocking script of that input to the same with a push of anything in front (`push extra`), and serialise. The node accepts these bytes as well (if they fit and the hash is new), and has
the same unspent outputs afterwards, under the other hash. -/
theorem C139_third_party (H : HashFns) (verify : Bytes → Bytes → Bytes → Bool) (L L₁ : Ledger) (b : Bytes) (hb : NodeAccepts H verify L b L₁) (key hash : Bytes) (hl : hash.length = 20)
    (sats : UInt64) (hk : L key = some ⟨sats, p2pkh hash⟩) (hne : L₁ key ≠ L key) (extra : Bytes) (hx0 : extra ≠ []) (hx : extra.length ≤ 75) :
    ∃ tx k inp unl tx', Transaction.NewFromBytes (Slice.exact b) = .ok tx ∧ tx.Inputs[k]? = some inp ∧ inp.UnlockingScript = some unl ∧
      tx.ApplyUnlockingScript (UInt32.ofNat k) (push extra ++ unl) = .ok tx' ∧ tx'.ToBytes ≠ b ∧ (tx'.GetTxID H ≠ tx.GetTxID H ∨ IdCollision H tx'.ToBytes b) ∧
      (tx'.ToBytes.length ≤ maxTxBytes → (∀ n < 2 ^ 32, L (H.sha256 (H.sha256 tx'.ToBytes) ++ leBytes 4 n) = none) →
        ∃ L₂, NodeAccepts H verify L tx'.ToBytes L₂ ∧ Renamed (H.sha256 (H.sha256 b)) (H.sha256 (H.sha256 tx'.ToBytes)) L₁ L₂) := by
  have hch : ∀ tx, IsTx MinCompactSize tx b → key ∈ tx.Inputs.map outpoint := fun tx ht => spent_of_changed hb (by rw [hk]; simp) hne ht
  obtain ⟨h1, h2, tx, h3, h4, rfl⟩ := hb
  have hmx : maxTxBytes < 2 ^ 31 := by decide
  have hp : Transaction.NewFromBytes (Slice.exact b) = .ok tx := (C35_accepts_iff b [] (by simp; omega) tx).mpr (isTx_mono h3)
  have he : tx.ToBytes = b := (isTx_min_eq tx b h3).symm
  have hid := (isTx_wire (isTx_mono h3)).2
  obtain ⟨inp, hm, hop⟩ := List.mem_map.mp (hch tx h3)
  obtain ⟨k, hkk⟩ := List.mem_iff_getElem?.mp hm
  obtain ⟨c, hc, hacc⟩ := h4.spends k inp hkk
  rw [hop, hk] at hc
  cases hc
  obtain ⟨inp', unl, tx', g1, g2, g3, g4, g5, g6, g7⟩ := C112_third_party H verify tx hid (by rw [he]; omega) k hash hl sats hacc extra hx0 hx
  rw [hkk] at g1
  cases g1
  have hlt : k < tx.Inputs.length := (List.getElem?_eq_some_iff.mp hkk).1
  have hins : tx.Inputs.length ≤ b.length := by
    obtain ⟨ci, bi, co, bo, -, g2, -, -, rfl⟩ := h3
    have := isSeq_length (fun i b (h : IsInput MinCompactSize i b) => by
      obtain ⟨txid, c, sc, -, -, rfl, -⟩ := h
      simp only [List.length_append, leBytes_length]; omega) _ _ g2
    simp only [List.length_append]; omega
  have hkn : (UInt32.ofNat k).toNat = k := by rw [UInt32.toNat_ofNat', Nat.mod_eq_of_lt (by omega)]
  have hsame : SameButUnlocking tx tx' := g3 ▸ withUnlocking_same tx k _
  have hid' := txids_same hsame hid
  refine ⟨tx, k, inp, unl, tx', hp, hkk, g2, ?_, by rw [← he]; exact g6, by rw [← he]; exact g7, fun hlen hfresh => ?_⟩
  · rw [applyUnlocking_eq _ (by rw [hkn]; exact hlt), hkn, g3]
  have hwo := wire_outpoints tx' hid'
  have hos := outpoints_same hsame
  have hvi : valueIn L (wireTx tx') = valueIn L tx := by rw [valueIn_eq, valueIn_eq, hwo, hos]
  have hvo : valueOut (wireTx tx') = valueOut tx := by
    show (tx'.Outputs.map (·.Satoshis.toNat)).sum = _
    rw [← hsame.2.2.1]; rfl
  refine ⟨_, ⟨hlen, hfresh, wireTx tx', tx_toBytes_isTx tx' hid' (by omega), ⟨?_, ?_, ?_, ?_, ?_, ?_, ?_⟩, rfl⟩, ?_⟩
  · intro e
    have : (wireTx tx').Inputs.map outpoint = [] := by rw [e]; rfl
    rw [hwo, hos] at this
    exact h4.inputs (List.map_eq_nil_iff.mp this)
  · show tx'.Outputs ≠ []
    rw [← hsame.2.2.1]; exact h4.outputs
  · rw [hwo, hos]; exact h4.distinct
  · intro j i hj
    simp only [wireTx, List.getElem?_map, Option.map_eq_some_iff] at hj
    obtain ⟨i', hj', rfl⟩ := hj
    have hjl : j < tx.Inputs.length := by
      have e1 := (List.getElem?_eq_some_iff.mp hj').1
      have := congrArg List.length hsame.2.2.2
      simp only [List.length_map] at this
      omega
    obtain ⟨i0, hi0⟩ : ∃ i, tx.Inputs[j]? = some i := ⟨_, List.getElem?_eq_getElem hjl⟩
    obtain ⟨i'', e1, e2, e3, -⟩ := input_same_full hsame j i0 hi0
    rw [hj'] at e1; cases e1
    obtain ⟨c, hc, hac⟩ := h4.spends j i0 hi0
    refine ⟨c, ?_, ?_⟩
    · rw [wireInput_outpoint i' (hid' i' (List.mem_of_getElem? hj'))]
      have : outpoint i' = outpoint i0 := by simp only [outpoint, e2, e3]
      rw [this]; exact hc
    · apply accepted_wire H verify tx' hid'
      by_cases hjk : j = k
      · subst hjk
        rw [hkk] at hi0; cases hi0
        rw [hop, hk] at hc; cases hc
        exact g4
      · exact (g5 j _ _ hjk).mpr hac
  · rw [hvi, hvo]; exact h4.range
  · rw [hvi, hvo]; exact h4.funded
  · rcases h4.final with hf | hf
    · exact .inl (hsame.2.1 ▸ hf)
    · right
      intro i hi
      obtain ⟨i', hi', rfl⟩ := List.mem_map.mp hi
      have hs : tx'.Inputs.map (·.SequenceNumber) = tx.Inputs.map (·.SequenceNumber) := by
        have := congrArg (List.map (·.SequenceNumber)) hsame.2.2.2
        simp only [List.map_map] at this
        exact this.symm
      have : i'.SequenceNumber ∈ tx.Inputs.map (·.SequenceNumber) := hs ▸ List.mem_map.mpr ⟨i', hi', rfl⟩
      obtain ⟨i0, hi0, e⟩ := List.mem_map.mp this
      show i'.SequenceNumber = _
      rw [← e]; exact hf i0 hi0
  · have hlo := isTx_outputs h3
    have := renamed_after L (H.sha256 (H.sha256 b)) (H.sha256 (H.sha256 tx'.ToBytes)) (H.sha256_length _) (H.sha256_length _) tx (by omega) h2 hfresh
    rwa [after_congr L _ (tx := wireTx tx') (t := tx) (by show tx'.Outputs = _; exact hsame.2.2.1.symm) (by rw [hwo, hos])]

/-- One more transaction: what is not there stays away. -/
theorem stays_away {H : HashFns} {verify : Bytes → Bytes → Bytes → Bool} {L L' : Ledger} {b' : Bytes} (h : NodeAccepts H verify L b' L') (tx : Transaction)
    (hid : ∀ i ∈ tx.Inputs, IsTxId i.PreviousTxID) (key : Bytes) (hin : key ∈ tx.Inputs.map outpoint) (hk : L key = none)
    (hf : ∀ n < 2 ^ 32, L (H.sha256 (H.sha256 tx.ToBytes) ++ leBytes 4 n) = none) :
    (L' key = none ∧ ∀ n < 2 ^ 32, L' (H.sha256 (H.sha256 tx.ToBytes) ++ leBytes 4 n) = none) ∨ IdCollision H b' tx.ToBytes ∨ ∃ n < 2 ^ 32, key = H.sha256 (H.sha256 b') ++ leBytes 4 n := by
  by_cases hkn : ∃ n < 2 ^ 32, key = H.sha256 (H.sha256 b') ++ leBytes 4 n
  · exact .inr (.inr hkn)
  by_cases he : H.sha256 (H.sha256 b') = H.sha256 (H.sha256 tx.ToBytes)
  · by_cases hb : b' = tx.ToBytes
    · exfalso
      obtain ⟨h1, -, t, h3, h4, -⟩ := h
      rw [hb] at h1 h3
      have hmx : maxTxBytes < 2 ^ 62 := by decide
      have := isTx_unique h3 (tx_toBytes_isTx tx hid (by omega))
      subst this
      rw [← wire_outpoints tx hid] at hin
      obtain ⟨i, hi, e⟩ := List.mem_map.mp hin
      obtain ⟨k, hkk⟩ := List.mem_iff_getElem?.mp hi
      obtain ⟨c, hc, -⟩ := h4.spends k i hkk
      rw [e, hk] at hc
      cases hc
    · exact .inr (.inl ⟨hb, he⟩)
  · left
    refine ⟨accepts_only h (fun n hn e => hkn ⟨n, hn, e⟩) hk, fun n hn => accepts_only h ?_ (hf n hn)⟩
    intro m hm e
    exact he (List.append_inj_left e (by simp [H.sha256_length])).symm

/-- C139 (what was built on the other version): the wallet has made `tx`, and other bytes `b` that spend an output that `tx` spends have been accepted. Then no transaction with an input for an
output of `tx` by its id — as `From` with `tx.GetTxID()` makes it — is ever accepted, through any history of transactions of anybody, unless bytes of the history have the double SHA256 of
`tx` or of the transaction whose output was spent. -/
theorem C139_orphan (H : HashFns) (verify : Bytes → Bytes → Bytes → Bool) (tx : Transaction) (hid : ∀ i ∈ tx.Inputs, IsTxId i.PreviousTxID) (L L₁ : Ledger) (b : Bytes)
    (hb : NodeAccepts H verify L b L₁) (hne : b ≠ tx.ToBytes) (hf : ∀ n < 2 ^ 32, L (H.sha256 (H.sha256 tx.ToBytes) ++ leBytes 4 n) = none)
    (key : Bytes) (hin : key ∈ tx.Inputs.map outpoint) (hspent : L₁ key = none) (bs : List Bytes) (L' : Ledger) (hbs : NodeAcceptsAll H verify L₁ bs L') :
    (∀ child : Transaction, (∀ i ∈ child.Inputs, IsTxId i.PreviousTxID) → (∃ i ∈ child.Inputs, i.PreviousTxID = tx.GetTxID H) → ¬ ∃ L'', NodeAccepts H verify L' child.ToBytes L'') ∨
      ∃ b' ∈ b :: bs, IdCollision H b' tx.ToBytes ∨ (b' ∈ bs ∧ ∃ n < 2 ^ 32, key = H.sha256 (H.sha256 b') ++ leBytes 4 n) := by
  have hmx : maxTxBytes < 2 ^ 62 := by decide
  have main : ∀ (bs : List Bytes) (L₁ L' : Ledger), L₁ key = none → (∀ n < 2 ^ 32, L₁ (H.sha256 (H.sha256 tx.ToBytes) ++ leBytes 4 n) = none) → NodeAcceptsAll H verify L₁ bs L' →
      (∀ n < 2 ^ 32, L' (H.sha256 (H.sha256 tx.ToBytes) ++ leBytes 4 n) = none) ∨ ∃ b' ∈ bs, IdCollision H b' tx.ToBytes ∨ ∃ n < 2 ^ 32, key = H.sha256 (H.sha256 b') ++ leBytes 4 n := by
    intro bs
    induction bs with
    | nil =>
      intro L₁ L' _ h2 h3
      left; rw [show L' = L₁ from h3]; exact h2
    | cons x bs ih =>
      rintro L₁ L' h1 h2 ⟨M, h3, h4⟩
      rcases stays_away h3 tx hid key hin h1 h2 with ⟨g1, g2⟩ | g
      · rcases ih M L' g1 g2 h4 with g | ⟨b', hb', g⟩
        · exact .inl g
        · exact .inr ⟨b', by simp [hb'], g⟩
      · exact .inr ⟨x, by simp, g⟩
  by_cases he : H.sha256 (H.sha256 b) = H.sha256 (H.sha256 tx.ToBytes)
  · exact .inr ⟨b, by simp, .inl ⟨hne, he⟩⟩
  have hf1 : ∀ n < 2 ^ 32, L₁ (H.sha256 (H.sha256 tx.ToBytes) ++ leBytes 4 n) = none := by
    intro n hn
    refine accepts_only hb ?_ (hf n hn)
    intro m hm e
    exact he (List.append_inj_left e (by simp [H.sha256_length])).symm
  rcases main bs L₁ L' hspent hf1 hbs with g | ⟨b', hb', g⟩
  · left
    rintro child hc ⟨i, hi, e⟩ ⟨L'', h1, -, t, h3, h4, -⟩
    have := isTx_unique h3 (tx_toBytes_isTx child hc (by omega))
    subst this
    have hop : outpoint i = H.sha256 (H.sha256 tx.ToBytes) ++ leBytes 4 i.PreviousTxOutIndex.toNat := by
      simp only [outpoint, e, (C38_txid_form H tx).1, hexDecodeIgnore_encode, List.reverse_reverse]
    have hm : outpoint i ∈ (wireTx child).Inputs.map outpoint := by
      rw [wire_outpoints child hc]; exact List.mem_map.mpr ⟨i, hi, rfl⟩
    obtain ⟨j, hj, ej⟩ := List.mem_map.mp hm
    obtain ⟨k, hkk⟩ := List.mem_iff_getElem?.mp hj
    obtain ⟨c, hcc, -⟩ := h4.spends k j hkk
    rw [ej, hop, g _ (UInt32.toNat_lt _)] at hcc
    cases hcc
  · exact .inr ⟨b', by simp [hb'], g.imp id fun g => ⟨hb', g⟩⟩

/-- C139 (following the version that was accepted): parse the accepted bytes; each output of the parsed transaction that pays to one of the keys can be spent next with the id the library gives for it
(`PaymentCall`, so by C115 the payment is accepted). -/
theorem C139_again (H : HashFns) (verify : Bytes → Bytes → Bytes → Bool) (hashes : List Bytes) (L L₁ : Ledger) (b : Bytes) (hb : NodeAccepts H verify L b L₁) :
    ∃ t, Transaction.NewFromBytes (Slice.exact b) = .ok t ∧ ∀ n o h, t.Outputs[n]? = some o → h ∈ hashes → o.LockingScript = p2pkh h →
      PaymentCall L₁ hashes (.fromUtxo (t.GetTxID H) (UInt32.ofNat n) o.GetLockingScriptHexString o.Satoshis) := by
  obtain ⟨h1, h2, t, h3, -, rfl⟩ := hb
  have hmx : maxTxBytes < 2 ^ 32 := by decide
  have hp : Transaction.NewFromBytes (Slice.exact b) = .ok t := (C35_accepts_iff b [] (by simp; omega) t).mpr (isTx_mono h3)
  have he : t.ToBytes = b := (isTx_min_eq t b h3).symm
  have hlo := isTx_outputs h3
  refine ⟨t, hp, fun n o h ho hh hs => ⟨isTxId_txid H t, h, hh, (isHexString_iff _).mpr (isHex_encode _), by rw [Output.GetLockingScriptHexString, hexDecodeIgnore_encode, hs], ?_⟩⟩
  have hlt := (List.getElem?_eq_some_iff.mp ho).1
  have hn : n < 2 ^ 32 := by omega
  have := received_key H t n hn [] 0
  simp only [WalletCoin.key] at this
  rw [this, he, after_output L _ t (by omega) h2 n hn, ho]
  simp [hs]

/-! ## The hypotheses are met -/

/-- The node that takes only the one signature accepts the example payment. -/
theorem exMempoolTx_ex : NodeAccepts toyH exVerify exLedger exMempoolTx.ToBytes (exLedger.after (toyH.sha256 (toyH.sha256 exMempoolTx.ToBytes)) exMempoolTx) := by
  obtain ⟨⟨a1, a2, tx, a3, a4, -⟩, a5⟩ := exMempoolTx_accepted
  have := isTx_unique a3 a5
  rw [this] at a4
  have hv : ValidTx toyH exVerify exLedger exMempoolTx → NodeAccepts toyH exVerify exLedger exMempoolTx.ToBytes (exLedger.after (toyH.sha256 (toyH.sha256 exMempoolTx.ToBytes)) exMempoolTx) :=
    fun h => ⟨a1, a2, exMempoolTx, a5, h, rfl⟩
  refine hv ⟨a4.inputs, a4.outputs, a4.distinct, ?_, a4.range, a4.funded, a4.final⟩
  intro k inp hk
  have hlen : exMempoolTx.Inputs.length = 1 := by decide +kernel
  have hk0 : k = 0 := by
    have := (List.getElem?_eq_some_iff.mp hk).1
    omega
  subst hk0
  obtain ⟨c, hc, -⟩ := a4.spends 0 inp hk
  refine ⟨⟨90, p2pkh (toyH.ripemd160 (toyH.sha256 toySigner.pubKey))⟩, ?_, ?_⟩
  · unfold exLedger at hc ⊢
    split_ifs at hc ⊢
    rfl
  · have hu : (exMempoolTx.Inputs[0]?).map (·.UnlockingScript) = some (some (unlocking (exDigest.take 9) 0x41 toySigner.pubKey)) := by decide +kernel
    rw [hk] at hu
    refine accepted_of_unlocking toyH exVerify _ 0 inp (exDigest.take 9) toySigner.pubKey 0x41 90 hk (by simpa using hu) (by decide +kernel) (by decide +kernel) (by decide) (by decide) ?_
    have hd : (exMempoolTx.Inputs[0]?).map (fun i => toyH.sha256 (toyH.sha256 (preimage (fun b => toyH.sha256 (toyH.sha256 b)) exMempoolTx 0 { i with PreviousTxSatoshis := 90 }
      (p2pkh (toyH.ripemd160 (toyH.sha256 toySigner.pubKey))) 0x41))) = some exDigest := by decide +kernel
    rw [hk, Option.map_some, Option.some.injEq] at hd
    rw [hd]
    simp [exVerify, toyVerify]

theorem exUnsigned_sized : Sized exUnsigned ∧ ∀ i ∈ exUnsigned.Inputs, IsTxId i.PreviousTxID := by
  refine ⟨⟨by decide +kernel, by decide +kernel, by decide +kernel, ?_⟩, by unfold IsTxId; decide +kernel⟩
  have : ∀ i ∈ exUnsigned.Inputs, (i.PreviousTxScript.getD []).length < 2 ^ 64 := by decide +kernel
  intro i hi s hs
  have h := this i hi
  rw [hs] at h
  exact h

theorem exCoin_spent : exLedger.after (toyH.sha256 (toyH.sha256 exMempoolTx.ToBytes)) exMempoolTx exCoin.key = none := by decide +kernel

theorem exOnlySigned : OnlySigned toyH exVerify toySigner.pubKey 0x41 ([0].map fun k => (exUnsigned, k)) := by
  intro d s h
  simp only [exVerify, Bool.and_eq_true, beq_iff_eq] at h
  exact ⟨(exUnsigned, 0), by simp, exUnsigned.Inputs.getD 0 Input.New, _, by decide +kernel, by decide +kernel, h.2⟩

/-- `C139_final` applies to the example payment at any height and time; the transaction that was signed is final. -/
example : ∀ height time, NodeAcceptsAt toyH exVerify height time exLedger exMempoolTx.ToBytes (exLedger.after (toyH.sha256 (toyH.sha256 exMempoolTx.ToBytes)) exMempoolTx) ∧ Final height time exUnsigned :=
  fun height time => ⟨(C138_accepts_iff toyH exVerify _ _ _).mp exMempoolTx_ex height time, .inl (by decide +kernel)⟩

/-- `C139_third_party` applies, so the node would also accept a version of the example payment that somebody else has made; `C139_versions` and `C139_outcome` apply to the two, and
`C139_orphan` to the second with the payment as `tx`. -/
example : ∃ b₂ L₂, b₂ ≠ exMempoolTx.ToBytes ∧ NodeAccepts toyH exVerify exLedger b₂ L₂ ∧ L₂ exCoin.key = none ∧ exCoin.key ∈ exMempoolTx.Inputs.map outpoint ∧
    Renamed (toyH.sha256 (toyH.sha256 exMempoolTx.ToBytes)) (toyH.sha256 (toyH.sha256 b₂)) (exLedger.after (toyH.sha256 (toyH.sha256 exMempoolTx.ToBytes)) exMempoolTx) L₂ := by
  have hk : exCoin.key = List.replicate 32 17 ++ leBytes 4 1 := by decide
  have hL : exLedger exCoin.key = some ⟨90, p2pkh (toyH.ripemd160 (toyH.sha256 toySigner.pubKey))⟩ := by simp [exLedger]
  obtain ⟨tx, k, inp, unl, tx', h1, h2, h3, h4, h5, -, h7⟩ := C139_third_party toyH exVerify exLedger _ _ exMempoolTx_ex exCoin.key _ (toyH.ripemd160_length _) 90 hL
    (by rw [exCoin_spent, hL]; simp) [7, 7] (by simp) (by simp)
  have htx : (Transaction.NewFromBytes (Slice.exact exMempoolTx.ToBytes)).isOk = true ∧ ∀ t, Transaction.NewFromBytes (Slice.exact exMempoolTx.ToBytes) = .ok t →
      t.Inputs.length = 1 ∧ (match t.Inputs[0]? with
        | some i => match i.UnlockingScript with
          | some u => match t.ApplyUnlockingScript 0 (push [7, 7] ++ u) with
            | .ok t' => decide (t'.ToBytes.length ≤ maxTxBytes ∧ toyH.sha256 (toyH.sha256 t'.ToBytes) ≠ List.replicate 32 17)
            | _ => false
          | _ => false
        | _ => false) = true := by
    have hp : Transaction.NewFromBytes (Slice.exact exMempoolTx.ToBytes) = .ok (wireTx exMempoolTx) := C33_parse_serialise exMempoolTx (by unfold IsTxId; decide +kernel) [] (by decide +kernel)
    rw [hp]
    refine ⟨rfl, fun t ht => ?_⟩
    rw [← Res.ok.inj ht]
    clear ht hp
    decide +kernel
  obtain ⟨e1, e2⟩ := htx.2 tx h1
  have hk0 : k = 0 := by
    have := (List.getElem?_eq_some_iff.mp h2).1
    omega
  subst hk0
  rw [h2] at e2
  simp only [h3] at e2
  rw [show (UInt32.ofNat 0 : UInt32) = 0 from rfl] at h4
  rw [h4] at e2
  obtain ⟨f1, f2⟩ := of_decide_eq_true e2
  obtain ⟨L₂, g1, g2⟩ := h7 f1 fun n _ => by
    unfold exLedger
    rw [if_neg]
    rw [hk]
    intro e
    exact f2 (List.append_inj_left e (by simp [toyH.sha256_length]))
  refine ⟨_, L₂, h5, g1, ?_, by decide +kernel, g2⟩
  have hne : ∀ n < 2 ^ 32, exCoin.key ≠ toyH.sha256 (toyH.sha256 exMempoolTx.ToBytes) ++ leBytes 4 n ∧ exCoin.key ≠ toyH.sha256 (toyH.sha256 tx'.ToBytes) ++ leBytes 4 n := by
    have hm : toyH.sha256 (toyH.sha256 exMempoolTx.ToBytes) ≠ List.replicate 32 17 := by decide +kernel
    intro n _
    rw [hk]
    exact ⟨fun e => hm (List.append_inj_left e (by simp [toyH.sha256_length])).symm, fun e => f2 (List.append_inj_left e (by simp [toyH.sha256_length])).symm⟩
  rw [g2.rest exCoin.key hne, exCoin_spent]

end Verif.Props
