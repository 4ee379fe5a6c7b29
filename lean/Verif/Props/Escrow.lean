import Verif.Spec.Escrow
import Verif.Props.Request
import Verif.Props.Authorise
import Verif.Props.Spendable
import Verif.Props.Pledge
import Verif.Props.Versions
/-!
# C141: escrow: an output that any `m` of the owners of some keys can spend together
-/
namespace Verif.Props
open Verif Spec Transaction

/-! ## What is needed to spend -/

/-- A signature that counts for input `j` of `tx` under the script `S` is one that the owner of the key agreed to. -/
theorem signedBy_agreed (H : HashFns) (verify : Bytes → Bytes → Bytes → Bool) (pub : Bytes) (flag : UInt8) (signed : List (Transaction × Nat)) (ho : Owner H verify pub flag signed)
    (tx : Transaction) (hout : ∀ o ∈ tx.Outputs, o.LockingScript.length < 2 ^ 64) (ht : ∀ i ∈ tx.Inputs, IsTxId i.PreviousTxID) (j : Nat) (inp : Input) (hi : tx.Inputs[j]? = some inp)
    (S : Bytes) (hS : S.length < 2 ^ 64) (sats : UInt64) (item : Bytes) (hs : SignedBy H verify tx j inp S sats pub item) : Agreed H flag signed tx j ⟨sats, S⟩ := by
  obtain ⟨honly, hsz⟩ := ho
  obtain ⟨sig, fl, -, -, hv⟩ := hs
  obtain ⟨⟨t, k⟩, hq, inp', code, hi', hc', hd⟩ := honly _ _ hv
  obtain ⟨hst, htt⟩ := hsz _ hq
  have hm := List.mem_of_getElem? hi
  have hm' := List.mem_of_getElem? hi'
  simp only at hst htt hm' hi' hd
  have hd' : H.sha256 (H.sha256 (preimage (fun b => H.sha256 (H.sha256 b)) tx j { inp with PreviousTxSatoshis := sats, PreviousTxScript := inp'.PreviousTxScript } S fl)) =
    H.sha256 (H.sha256 (preimage (fun b => H.sha256 (H.sha256 b)) t k inp' code flag)) := hd
  rcases preimage_binds H tx t hout hst.2.2.1 ht htt j k fl flag { inp with PreviousTxSatoshis := sats, PreviousTxScript := inp'.PreviousTxScript } inp' S code (ht inp hm) (htt _ hm')
    hS (hst.2.2.2 _ hm' _ hc') hd' with ⟨hcode, hb⟩ | hcol
  swap
  · exact .inr ⟨_, hq, inp, inp', code, fl, hi, hi', hc', hcol⟩
  left
  obtain ⟨rfl, b2, b3, b4, b5, -, b7, b8, b9, b10, b11, b12⟩ := hb rfl
  refine ⟨_, hq, b2, b3, ⟨inp, inp', hi, hi', outpoint_of_lower (ht _ hm) (htt _ hm') b4 b5, b8, by rw [hc', hcode], b7.symm⟩, ?_, b10, b11, b12⟩
  intro ha
  have hmap := b9 ha
  have hlen : tx.Inputs.length = t.Inputs.length := by simpa using congrArg List.length hmap
  apply List.ext_getElem (by simpa using hlen)
  intro n h1 h2
  simp only [List.length_map] at h1 h2
  have hn := congrArg (·[n]?) hmap
  simp only [List.getElem?_map, List.getElem?_eq_getElem h1, List.getElem?_eq_getElem h2, Option.map_some, Option.some.injEq, Prod.mk.injEq] at hn
  simp only [List.getElem_map]
  exact outpoint_of_lower (ht _ (List.getElem_mem h1)) (htt _ (List.getElem_mem h2)) hn.1 hn.2

theorem redeem_small (rs : RedeemScript) (m : Nat) (hr : rs.SignaturesRequired = m) (hn : rs.PublicKeys.length ≤ 16) (hk : ∀ k ∈ rs.PublicKeys, 1 ≤ k.length ∧ k.length ≤ 75) :
    (GetRedeemScript rs).1.length < 2 ^ 11 := by
  have hp := C05_sort_perm rs.PublicKeys
  rw [redeem_tokens rs m hr _ hp (C05_sort_sorted _)]
  have hk' : ∀ k ∈ SortByteArrays rs.PublicKeys, k.length ≤ 75 := fun k h => (hk k (hp.mem_iff.mp h)).2
  have hn' : (SortByteArrays rs.PublicKeys).length ≤ 16 := by rw [hp.length_eq]; exact hn
  generalize SortByteArrays rs.PublicKeys = keys at hk' hn'
  have hsum : ∀ ks : List Bytes, (∀ k ∈ ks, k.length ≤ 75) → (bytesOf (ks.map Token.direct)).length ≤ 76 * ks.length := by
    intro ks
    induction ks with
    | nil => intro _; simp [bytesOf]
    | cons k ks ih =>
      intro h
      have h1 := h k (by simp)
      have h2 := ih (fun x hx => h x (by simp [hx]))
      simp only [List.map_cons, bytesOf, List.flatMap_cons, List.length_append, List.length_cons] at *
      simp only [Token.bytes, Token.header, Token.data, List.length_append, List.length_cons, List.length_nil] at *
      omega
  have := hsum keys hk'
  simp only [multisigTokens, bytesOf, List.flatMap_cons, List.flatMap_append, List.flatMap_nil, List.length_append] at *
  simp only [Token.bytes, Token.header, Token.data, List.length_append, List.length_cons, List.length_nil] at *
  omega

theorem forall2_left {α β : Type} {R : α → β → Prop} {l : List α} {l' : List β} (h : List.Forall₂ R l l') {a : α} (ha : a ∈ l) : ∃ b, R a b := by
  induction h with
  | nil => cases ha
  | cons h1 _ ih =>
    rcases List.mem_cons.mp ha with rfl | ha
    · exact ⟨_, h1⟩
    · exact ih ha

/-- C141: an output with the redeem script of `m` of some keys is spent only if `m` of the owners (of different keys in the list) have agreed that this input spends this output. What they have agreed to
is what their signatures cover. -/
theorem C141_accepted (H : HashFns) (verify : Bytes → Bytes → Bytes → Bool) (rs : RedeemScript) (m : Nat) (hr : rs.SignaturesRequired = m) (hm : 1 ≤ m ∧ m ≤ 16)
    (hn : 1 ≤ rs.PublicKeys.length ∧ rs.PublicKeys.length ≤ 16) (hk : ∀ k ∈ rs.PublicKeys, 1 ≤ k.length ∧ k.length ≤ 75)
    (tx : Transaction) (hout : ∀ o ∈ tx.Outputs, o.LockingScript.length < 2 ^ 64) (ht : ∀ i ∈ tx.Inputs, IsTxId i.PreviousTxID) (j : Nat) (sats : UInt64)
    (hacc : Accepted H verify tx j (GetRedeemScript rs).1 sats) :
    ∃ who : List Bytes, who.Subperm rs.PublicKeys ∧ who.length = m ∧
      ∀ pub ∈ who, ∀ flag signed, Owner H verify pub flag signed → Agreed H flag signed tx j ⟨sats, (GetRedeemScript rs).1⟩ := by
  have hp := C05_sort_perm rs.PublicKeys
  obtain ⟨inp, unl, items, hi, -, -, before, dummy, sigs, signers, -, hl, hsub, hall⟩ :=
    (C86_redeem_iff H verify rs m hr hm hn hk _ hp (C05_sort_sorted _) tx j sats).mp hacc
  refine ⟨signers, hsub.subperm.trans hp.subperm, by rw [hall.length_eq, hl], ?_⟩
  intro pub hpub flag signed ho
  obtain ⟨item, hs⟩ := forall2_left hall hpub
  exact signedBy_agreed H verify pub flag signed ho tx hout ht j inp hi _ (by have := redeem_small rs m hr hn.2 hk; omega) sats item hs

/-- An unspent output is still there after a transaction, unless the transaction spends it: with an input that the script of the output accepts. -/
theorem spent_step (H : HashFns) (verify : Bytes → Bytes → Bytes → Bool) (L L' : Ledger) (b : Bytes) (hb : NodeAccepts H verify L b L') (key : Bytes) (c : Coin) (hk : L key = some c) :
    L' key = L key ∨ ∃ tx j inp, IsTx MinCompactSize tx b ∧ tx.Inputs[j]? = some inp ∧ outpoint inp = key ∧ Accepted H verify tx j c.script c.sats := by
  obtain ⟨h1, h2, tx, h3, h4, rfl⟩ := hb
  have hmx : maxTxBytes < 2 ^ 32 := by decide
  by_cases hin : key ∈ tx.Inputs.map outpoint
  · right
    obtain ⟨inp, hm, he⟩ := List.mem_map.mp hin
    obtain ⟨j, hj⟩ := List.mem_iff_getElem?.mp hm
    obtain ⟨c', hc, hacc⟩ := h4.spends j inp hj
    rw [he, hk] at hc
    cases hc
    exact ⟨tx, j, inp, h3, hj, he, hacc⟩
  · left
    unfold Ledger.after
    rcases hlk : (created (H.sha256 (H.sha256 b)) tx).lookup key with _ | c'
    · simp only [if_neg hin]
    · exfalso
      obtain ⟨n, hlt, e⟩ := created_mem (mem_of_lookup _ hlk)
      have hn : n < 2 ^ 32 := by
        obtain ⟨ci, bi, co, bo, -, -, -, g4, rfl⟩ := h3
        have := isSeq_length (fun o b (h : IsOutput MinCompactSize o b) => by
          obtain ⟨count, -, rfl⟩ := h
          simp only [List.length_append, leBytes_length]; omega) _ _ g4
        simp only [List.length_append] at h1
        omega
      rw [e, h2 n hn] at hk
      cases hk

/-- The same through a history. -/
theorem spent_history (H : HashFns) (verify : Bytes → Bytes → Bytes → Bool) (bs : List Bytes) :
    ∀ (L L' : Ledger), NodeAcceptsAll H verify L bs L' → ∀ (key : Bytes) (c : Coin), L key = some c →
      L' key = L key ∨ ∃ b ∈ bs, ∃ tx j inp, IsTx MinCompactSize tx b ∧ tx.Inputs[j]? = some inp ∧ outpoint inp = key ∧ Accepted H verify tx j c.script c.sats := by
  induction bs with
  | nil => intro L L' h key c _; exact .inl (by rw [h])
  | cons b bs ih =>
    rintro L L' ⟨L1, h1, h2⟩ key c hk
    rcases spent_step H verify L L1 b h1 key c hk with he | ⟨tx, j, inp, hx⟩
    · rcases ih L1 L' h2 key c (by rw [he]; exact hk) with h | ⟨b', hb', h⟩
      · exact .inl (h.trans he)
      · exact .inr ⟨b', by simp [hb'], h⟩
    · exact .inr ⟨b, by simp, tx, j, inp, hx⟩

/-- C141 (through a history): an escrow output stays unspent through any sequence of transactions by anyone, unless one of them spends it and `m` of the owners have agreed to this one. -/
theorem C141_history (H : HashFns) (verify : Bytes → Bytes → Bytes → Bool) (rs : RedeemScript) (m : Nat) (hr : rs.SignaturesRequired = m) (hm : 1 ≤ m ∧ m ≤ 16)
    (hn : 1 ≤ rs.PublicKeys.length ∧ rs.PublicKeys.length ≤ 16) (hk : ∀ k ∈ rs.PublicKeys, 1 ≤ k.length ∧ k.length ≤ 75)
    (bs : List Bytes) (L L' : Ledger) (hacc : NodeAcceptsAll H verify L bs L') (key : Bytes) (sats : UInt64) (hL : L key = some ⟨sats, (GetRedeemScript rs).1⟩) :
    L' key = L key ∨ ∃ b ∈ bs, ∃ tx j inp, IsTx MinCompactSize tx b ∧ tx.Inputs[j]? = some inp ∧ outpoint inp = key ∧
      ∃ who : List Bytes, who.Subperm rs.PublicKeys ∧ who.length = m ∧
        ∀ pub ∈ who, ∀ flag signed, Owner H verify pub flag signed → Agreed H flag signed tx j ⟨sats, (GetRedeemScript rs).1⟩ := by
  rcases spent_history H verify bs L L' hacc key _ hL with h | ⟨b, hb, tx, j, inp, h1, h2, h3, h4⟩
  · exact .inl h
  refine .inr ⟨b, hb, tx, j, inp, h1, h2, h3, C141_accepted H verify rs m hr hm hn hk tx ?_ (isTx_wire (isTx_mono h1)).2 j sats h4⟩
  intro o ho
  obtain ⟨ci, bi, co, bo, -, -, -, g4, -⟩ := h1
  obtain ⟨bx, count, hcount, -⟩ := isSeq_mem g4 o ho
  exact (minCompactSize_iff.mp hcount).1

/-- C141 (all agree to the same): if all owners sign with flags of type ALL without ANYONECANPAY, then whoever spends the output, `m` of the owners have signed transactions with the same outpoints
and the same outputs as the one that spends it (or a collision is at hand). -/
theorem C141_same_payment (H : HashFns) (verify : Bytes → Bytes → Bytes → Bool) (rs : RedeemScript) (m : Nat) (hr : rs.SignaturesRequired = m) (hm : 1 ≤ m ∧ m ≤ 16)
    (hn : 1 ≤ rs.PublicKeys.length ∧ rs.PublicKeys.length ≤ 16) (hk : ∀ k ∈ rs.PublicKeys, 1 ≤ k.length ∧ k.length ≤ 75)
    (flag : Bytes → UInt8) (signed : Bytes → List (Transaction × Nat)) (ho : ∀ pub ∈ rs.PublicKeys, Owner H verify pub (flag pub) (signed pub))
    (hf : ∀ pub ∈ rs.PublicKeys, anyoneCanPay (flag pub) = false ∧ isNone (flag pub) = false ∧ isSingle (flag pub) = false)
    (bs : List Bytes) (L L' : Ledger) (hacc : NodeAcceptsAll H verify L bs L') (key : Bytes) (sats : UInt64) (hL : L key = some ⟨sats, (GetRedeemScript rs).1⟩) :
    L' key = L key ∨ ∃ b ∈ bs, ∃ tx j, IsTx MinCompactSize tx b ∧ key ∈ tx.Inputs.map outpoint ∧ ∃ who : List Bytes, who.Subperm rs.PublicKeys ∧ who.length = m ∧
      ∀ pub ∈ who, (∃ q ∈ signed pub, q.1.Inputs.map outpoint = tx.Inputs.map outpoint ∧ q.1.Outputs = tx.Outputs) ∨
        ∃ q ∈ signed pub, DigestCollision H (flag pub) q.1 q.2 tx j ⟨sats, (GetRedeemScript rs).1⟩ := by
  rcases C141_history H verify rs m hr hm hn hk bs L L' hacc key sats hL with h | ⟨b, hb, tx, j, inp, h1, h2, h3, who, h4, h5, h6⟩
  · exact .inl h
  refine .inr ⟨b, hb, tx, j, h1, List.mem_map.mpr ⟨inp, List.mem_of_getElem? h2, h3⟩, who, h4, h5, fun pub hpub => ?_⟩
  have hin := h4.subset hpub
  obtain ⟨f1, f2, f3⟩ := hf pub hin
  rcases h6 pub hpub _ _ (ho pub hin) with ⟨q, hq, ha⟩ | h
  · exact .inl ⟨q, hq, (ha.inputs f1).symm, (ha.outputs f2 f3).symm⟩
  · exact .inr h

/-- C141 (too few): if there are not `m` owners who have signed anything, the output stays unspent through every history. Nobody can spend it, and no collision of a hash function helps. -/
theorem C141_few (H : HashFns) (verify : Bytes → Bytes → Bytes → Bool) (rs : RedeemScript) (m : Nat) (hr : rs.SignaturesRequired = m) (hm : 1 ≤ m ∧ m ≤ 16)
    (hn : 1 ≤ rs.PublicKeys.length ∧ rs.PublicKeys.length ≤ 16) (hk : ∀ k ∈ rs.PublicKeys, 1 ≤ k.length ∧ k.length ≤ 75)
    (silent : List Bytes) (hs : ∀ pub ∈ silent, Owner H verify pub 0x41 []) (hfew : (rs.PublicKeys.filter fun k => decide (k ∉ silent)).length < m)
    (bs : List Bytes) (L L' : Ledger) (hacc : NodeAcceptsAll H verify L bs L') (key : Bytes) (sats : UInt64) (hL : L key = some ⟨sats, (GetRedeemScript rs).1⟩) : L' key = L key := by
  rcases C141_history H verify rs m hr hm hn hk bs L L' hacc key sats hL with h | ⟨b, -, tx, j, inp, -, -, -, who, h4, h5, h6⟩
  · exact h
  exfalso
  by_cases hall : ∀ pub ∈ who, pub ∉ silent
  · have hf : who.filter (fun k => decide (k ∉ silent)) = who := by
      rw [List.filter_eq_self]; intro k hk'; exact decide_eq_true (hall k hk')
    have := (h4.filter (fun k : Bytes => decide (k ∉ silent))).length_le
    rw [hf] at this
    omega
  · push Not at hall
    obtain ⟨pub, hp1, hp2⟩ := hall
    rcases h6 pub hp1 _ _ (hs pub hp2) with ⟨q, hq, -⟩ | ⟨q, hq, -⟩ <;> cases hq

/-! ## Paying into it -/

/-- C141 (paying into it): a payment of unspent outputs of a user's keys, one of whose calls adds an output with the redeem script. If a node accepts the signed transaction, then an output with that
amount and that script is unspent afterwards, under the hash of the bytes and its index among the outputs. -/
theorem C141_fund (H : HashFns) (verify : Bytes → Bytes → Bytes → Bool) (signers : List InternalSigner) (hg : ∀ is ∈ signers, GoodSigner verify is) (L : Ledger)
    (rs : RedeemScript) (m : Nat) (hr : rs.SignaturesRequired = m) (hn : rs.PublicKeys.length ≤ 16) (hk : ∀ k ∈ rs.PublicKeys, 1 ≤ k.length ∧ k.length ≤ 75) (sats : UInt64)
    (before after : List Call) (hb : ∀ c ∈ before ++ after, PaymentCall L (keyHashes H signers) c) (hlen : before.length + after.length + 1 < 2 ^ 31) :
    let calls := before ++ Call.addOutput { Satoshis := sats, LockingScript := (GetRedeemScript rs).1 } :: after
    ∃ tx tx', applyCalls Transaction.New calls = .ok (tx, List.replicate calls.length true) ∧ signWithAll H signers tx = .ok tx' ∧
      ((∃ L', NodeAccepts H verify L tx'.ToBytes L') ↔
        Payable calls ∧ tx'.ToBytes.length ≤ maxTxBytes ∧ ∀ n < 2 ^ 32, L (H.sha256 (H.sha256 tx'.ToBytes) ++ leBytes 4 n) = none) ∧
      ∀ L', NodeAccepts H verify L tx'.ToBytes L' →
        L' (H.sha256 (H.sha256 tx'.ToBytes) ++ leBytes 4 (before.flatMap Call.outs).length) = some ⟨sats, (GetRedeemScript rs).1⟩ := by
  have hs := redeem_small rs m hr hn hk
  have hne : (GetRedeemScript rs).1 ≠ [] := by
    rw [redeem_tokens rs m hr _ (C05_sort_perm _) (C05_sort_sorted _)]
    simp [multisigTokens, bytesOf, Token.bytes, Token.header]
  exact C140_payment H verify signers hg L _ hne (by omega) _ (by rw [request_text]; exact (C140_request H _ hne).2.2) sats before after hb hlen

/-! ## Spending it -/

/-- What each of the owners does, with the library: takes the digest of the input, signs it, and appends the flag. -/
def escrowSignature (H : HashFns) (tx : Transaction) (idx : UInt32) (is : InternalSigner) : Res Bytes := do
  let sh ← tx.GetInputSignatureHash H idx (flagOrDefault is.SigHashFlag)
  let sig ← is.sign (ReverseBytes sh)
  pure (sig ++ [flagOrDefault is.SigHashFlag])

/-- What they do together: the signatures, after an empty item, are pushed by the unlocking script. -/
def release (H : HashFns) (tx : Transaction) (idx : UInt32) (ss : List InternalSigner) : Res Transaction := do
  let sigs ← ss.mapM (escrowSignature H tx idx)
  let unl ← AppendPushDataArray [] ([] :: sigs)
  tx.ApplyUnlockingScript idx unl

theorem lexLe_sublist {l₁ l₂ : List Bytes} (hp : l₁.Subperm l₂) (h1 : l₁.Pairwise lexLe) (h2 : l₂.Pairwise lexLe) : l₁.Sublist l₂ := by
  obtain ⟨l, hl, hs⟩ := hp
  rw [← sorted_perm_unique hl (h2.sublist hs) h1]
  exact hs

/-- What `release` does: item after item. -/
theorem release_items (H : HashFns) (verify : Bytes → Bytes → Bytes → Bool) (R : Bytes) (ss : List InternalSigner) (hg : ∀ is ∈ ss, GoodSigner verify is)
    (tx : Transaction) (hs : Sized tx) (idx : UInt32) (inp : Input) (hi : tx.Inputs[idx.toNat]? = some inp) (hid : inp.PreviousTxID ≠ []) (hscript : inp.PreviousTxScript = some R) :
    ∃ sigs, release H tx idx ss = .ok (withUnlocking tx idx.toNat (([] :: sigs).flatMap push)) ∧ (∀ d ∈ ([] : Bytes) :: sigs, d.length < 2 ^ 32) ∧
      List.Forall₂ (fun is s => ∃ sig, is.sign (H.sha256 (H.sha256 (preimage (fun b => H.sha256 (H.sha256 b)) tx idx.toNat inp R (flagOrDefault is.SigHashFlag)))) = .ok sig ∧
        s = sig ++ [flagOrDefault is.SigHashFlag] ∧
        verify is.pubKey (H.sha256 (H.sha256 (preimage (fun b => H.sha256 (H.sha256 b)) tx idx.toNat inp R (flagOrDefault is.SigHashFlag)))) sig = true) ss sigs := by
  have hlt : idx.toNat < tx.Inputs.length := (List.getElem?_eq_some_iff.mp hi).1
  obtain ⟨sigs, e1, e2, e3⟩ : ∃ sigs, ss.mapM (escrowSignature H tx idx) = .ok sigs ∧ (∀ s ∈ sigs, s.length < 2 ^ 32) ∧
      List.Forall₂ (fun is s => ∃ sig, is.sign (H.sha256 (H.sha256 (preimage (fun b => H.sha256 (H.sha256 b)) tx idx.toNat inp R (flagOrDefault is.SigHashFlag)))) = .ok sig ∧
        s = sig ++ [flagOrDefault is.SigHashFlag] ∧
        verify is.pubKey (H.sha256 (H.sha256 (preimage (fun b => H.sha256 (H.sha256 b)) tx idx.toNat inp R (flagOrDefault is.SigHashFlag)))) sig = true) ss sigs := by
    induction ss with
    | nil => exact ⟨[], rfl, by simp, .nil⟩
    | cons is l ih =>
      obtain ⟨sigs, e1, e2, e3⟩ := ih fun x hx => hg x (by simp [hx])
      obtain ⟨hz, -, hsv⟩ := hg is (by simp)
      obtain ⟨sig, hsig, hver⟩ := hsv (H.sha256 (H.sha256 (preimage (fun b => H.sha256 (H.sha256 b)) tx idx.toNat inp R (flagOrDefault is.SigHashFlag))))
      have h1 : escrowSignature H tx idx is = .ok (sig ++ [flagOrDefault is.SigHashFlag]) := by
        unfold escrowSignature
        rw [C43_digest H tx hs idx _ inp R hi hid hscript, Res.ok_bind, ReverseBytes_eq, List.reverse_reverse, hsig]
        rfl
      refine ⟨(sig ++ [flagOrDefault is.SigHashFlag]) :: sigs, ?_, ?_, .cons ⟨sig, hsig, rfl, hver⟩ e3⟩
      · rw [List.mapM_cons, h1, Res.ok_bind, e1]; rfl
      · intro s h
        rcases List.mem_cons.mp h with rfl | h
        · have := hz.2 _ _ hsig
          simpa using this
        · exact e2 s h
  have hall : ∀ d ∈ ([] : Bytes) :: sigs, d.length < 2 ^ 32 := by
    intro d hd
    rcases List.mem_cons.mp hd with rfl | hd
    · decide
    · exact e2 d hd
  have hb : ([] :: sigs).flatMap push = bytesOf (([] :: sigs).map tokenFor) := by
    unfold bytesOf
    rw [List.flatMap_map]
    congr 1
    funext d
    exact push_eq d
  refine ⟨sigs, ?_, hall, e3⟩
  have henc : EncodeParts ([] :: sigs) = .ok (([] :: sigs).flatMap push) :=
    (encodeParts_ok_iff _ _).mpr ⟨fun p hp => by have := hall p hp; omega, hb⟩
  unfold release AppendPushDataArray
  rw [e1, Res.ok_bind, henc, Res.ok_bind, Res.pure_eq, Res.ok_bind, List.nil_append, applyUnlocking_eq _ hlt]

theorem signedBy_blind (H : HashFns) (verify : Bytes → Bytes → Bytes → Bool) (tx : Transaction) (k : Nat) (inp : Input) (unl : Bytes) (R : Bytes) (pub item : Bytes) :
    SignedBy H verify (withUnlocking tx k unl) k { inp with UnlockingScript := some unl } R inp.PreviousTxSatoshis pub item ↔ SignedBy H verify tx k inp R inp.PreviousTxSatoshis pub item := by
  constructor
  · rintro ⟨sig, fl, h1, h2, h3⟩
    exact ⟨sig, fl, h1, h2, by rw [preimage_same (withUnlocking_same tx k unl)]; exact h3⟩
  · rintro ⟨sig, fl, h1, h2, h3⟩
    exact ⟨sig, fl, h1, h2, by rw [← preimage_same (withUnlocking_same tx k unl)]; exact h3⟩

/-- C141 (spending it): `m` of the owners (of different keys in the list), in the order of their keys, can spend the output: the input that names it and says its script and amount gets an unlocking script
that the redeem script accepts, and nothing else changes. -/
theorem C141_release (H : HashFns) (verify : Bytes → Bytes → Bytes → Bool) (rs : RedeemScript) (m : Nat) (hr : rs.SignaturesRequired = m) (hm : 1 ≤ m ∧ m ≤ 16)
    (hn : 1 ≤ rs.PublicKeys.length ∧ rs.PublicKeys.length ≤ 16) (hk : ∀ k ∈ rs.PublicKeys, 1 ≤ k.length ∧ k.length ≤ 75)
    (ss : List InternalSigner) (hg : ∀ is ∈ ss, GoodSigner verify is) (hmany : ss.length = m) (hkeys : (ss.map (·.pubKey)).Subperm rs.PublicKeys) (hord : (ss.map (·.pubKey)).Pairwise lexLe)
    (tx : Transaction) (hs : Sized tx) (idx : UInt32) (inp : Input) (hi : tx.Inputs[idx.toNat]? = some inp) (hid : inp.PreviousTxID ≠ []) (hscript : inp.PreviousTxScript = some (GetRedeemScript rs).1) :
    ∃ unl, release H tx idx ss = .ok (withUnlocking tx idx.toNat unl) ∧
      Accepted H verify (withUnlocking tx idx.toNat unl) idx.toNat (GetRedeemScript rs).1 inp.PreviousTxSatoshis := by
  obtain ⟨sigs, e1, hall, e3⟩ := release_items H verify _ ss hg tx hs idx inp hi hid hscript
  refine ⟨_, e1, ?_⟩
  obtain ⟨R, hR⟩ : ∃ R, (GetRedeemScript rs).1 = R := ⟨_, rfl⟩
  have hp := C05_sort_perm rs.PublicKeys
  rw [C86_redeem_iff H verify rs m hr hm hn hk _ hp (C05_sort_sorted _)]
  rw [hR] at e3 ⊢
  refine ⟨{ inp with UnlockingScript := some (([] :: sigs).flatMap push) }, _, [] :: sigs, ?_, rfl, (pushes_iff _ _ hall).mpr rfl,
    [], [], sigs, ss.map (·.pubKey), rfl, ?_, lexLe_sublist (hkeys.trans hp.symm.subperm) hord (C05_sort_sorted _), ?_⟩
  · simp [withUnlocking, List.getElem?_mapIdx, hi]
  · rw [← e3.length_eq, hmany]
  · rw [List.forall₂_map_left_iff]
    refine List.Forall₂.imp (fun is item h => (signedBy_blind H verify tx _ inp _ R is.pubKey item).mpr h) ?_
    have hfl : ∀ is ∈ ss, DefinedFlag (flagOrDefault is.SigHashFlag) = true := fun is h => (hg is h).2.1.2
    clear e1 hall hmany hkeys hord hg
    induction e3 with
    | nil => exact .nil
    | @cons is s l l' h1 _ ih =>
      obtain ⟨sig, -, h2, h3⟩ := h1
      exact .cons ⟨sig, _, h2, hfl is (by simp), h3⟩ (ih fun x hx => hfl x (by simp [hx]))

/-- C141 (the order): if the signatures of the owners are good for no other key, then the unlocking script is accepted only when the owners come in the order of their keys, which nothing in the library sees to. -/
theorem C141_order (H : HashFns) (verify : Bytes → Bytes → Bytes → Bool) (rs : RedeemScript) (m : Nat) (hr : rs.SignaturesRequired = m) (hm : 1 ≤ m ∧ m ≤ 16)
    (hn : 1 ≤ rs.PublicKeys.length ∧ rs.PublicKeys.length ≤ 16) (hk : ∀ k ∈ rs.PublicKeys, 1 ≤ k.length ∧ k.length ≤ 75)
    (ss : List InternalSigner) (hg : ∀ is ∈ ss, GoodSigner verify is) (hmany : ss.length = m) (hkeys : (ss.map (·.pubKey)).Subperm rs.PublicKeys)
    (hown : ∀ is ∈ ss, ∀ d s pub, is.sign d = .ok s → verify pub d s = true → pub = is.pubKey)
    (tx : Transaction) (hs : Sized tx) (idx : UInt32) (inp : Input) (hi : tx.Inputs[idx.toNat]? = some inp) (hid : inp.PreviousTxID ≠ []) (hscript : inp.PreviousTxScript = some (GetRedeemScript rs).1) :
    ∃ tx', release H tx idx ss = .ok tx' ∧ (Accepted H verify tx' idx.toNat (GetRedeemScript rs).1 inp.PreviousTxSatoshis ↔ (ss.map (·.pubKey)).Pairwise lexLe) := by
  obtain ⟨sigs, e1, hall, e3⟩ := release_items H verify _ ss hg tx hs idx inp hi hid hscript
  refine ⟨_, e1, ?_, ?_⟩
  swap
  · intro hord
    obtain ⟨unl, f1, f2⟩ := C141_release H verify rs m hr hm hn hk ss hg hmany hkeys hord tx hs idx inp hi hid hscript
    rw [e1] at f1
    injection f1 with f1
    rw [f1]; exact f2
  intro hacc
  have hp := C05_sort_perm rs.PublicKeys
  obtain ⟨inp', unl, items, g1, g2, g3, before, dummy, sigs', signers, g4, g5, g6, g7⟩ := (C86_redeem_iff H verify rs m hr hm hn hk _ hp (C05_sort_sorted _) _ _ _).mp hacc
  have hgi : (withUnlocking tx idx.toNat (([] :: sigs).flatMap push)).Inputs[idx.toNat]? = some { inp with UnlockingScript := some (([] :: sigs).flatMap push) } := by
    simp [withUnlocking, List.getElem?_mapIdx, hi]
  rw [hgi] at g1
  injection g1 with g1
  subst g1
  simp only [Option.some.injEq] at g2
  subst g2
  have hit := (pushes_iff _ _ hall).mp g3
  rw [hit] at g4
  have hsl : sigs.length = m := by rw [← e3.length_eq, hmany]
  obtain ⟨-, h2⟩ := List.append_inj' (s₁ := [[]]) (t₁ := sigs) g4 (by rw [hsl, g5])
  subst h2
  have g8 : List.Forall₂ (SignedBy H verify tx idx.toNat inp (GetRedeemScript rs).1 inp.PreviousTxSatoshis) signers sigs :=
    g7.imp fun pub item h => (signedBy_blind H verify tx _ inp _ _ pub item).mp h
  have heq : signers = ss.map (·.pubKey) := by
    clear e1 hall hmany hkeys g4 hit hsl g5 g3 hacc hgi g6 g7
    induction e3 generalizing signers with
    | nil => cases g8; rfl
    | @cons is s l l' h1 _ ih =>
      cases g8 with
      | @cons pub _ signers' _ k1 k2 =>
        rw [List.map_cons, ih (fun x hx => hg x (by simp [hx])) (fun x hx => hown x (by simp [hx])) signers' k2]
        congr 1
        obtain ⟨sig, h2, h3, -⟩ := h1
        obtain ⟨sig', fl, k3, -, k4⟩ := k1
        rw [h3] at k3
        obtain ⟨rfl, k5⟩ := List.append_inj' k3 rfl
        simp only [List.cons.injEq, and_true] at k5
        subst k5
        exact hown is (by simp) _ _ _ h2 k4
  rw [← heq]
  exact (C05_sort_sorted _).sublist g6

/-- C141 (the node): the escrow output is spent by a transaction built with the library for it alone, that pays whatever was agreed. A node accepts it if and only if something is paid, no more than the
output is worth, and the transaction is new and not too big. Afterwards the escrow output is gone and what was agreed is unspent. -/
theorem C141_release_node (H : HashFns) (verify : Bytes → Bytes → Bytes → Bool) (rs : RedeemScript) (m : Nat) (hr : rs.SignaturesRequired = m) (hm : 1 ≤ m ∧ m ≤ 16)
    (hn : 1 ≤ rs.PublicKeys.length ∧ rs.PublicKeys.length ≤ 16) (hk : ∀ k ∈ rs.PublicKeys, 1 ≤ k.length ∧ k.length ≤ 75)
    (ss : List InternalSigner) (hg : ∀ is ∈ ss, GoodSigner verify is) (hmany : ss.length = m) (hkeys : (ss.map (·.pubKey)).Subperm rs.PublicKeys) (hord : (ss.map (·.pubKey)).Pairwise lexLe)
    (L : Ledger) (txid : Bytes) (hid : IsTxId txid) (vout : UInt32) (sats : UInt64) (hL : L (outpointOf txid vout) = some ⟨sats, (GetRedeemScript rs).1⟩)
    (outs : List Call) (hout : ∀ c ∈ outs, PaymentCall L [] c) (hlen : outs.length + 1 < 2 ^ 31) :
    let calls := Call.fromUtxo txid vout (hexEncode (GetRedeemScript rs).1) sats :: outs
    ∃ tx tx', applyCalls Transaction.New calls = .ok (tx, List.replicate calls.length true) ∧ release H tx 0 ss = .ok tx' ∧ tx'.Outputs = outs.flatMap Call.outs ∧
      ((∃ L', NodeAccepts H verify L tx'.ToBytes L') ↔
        (outs ≠ [] ∧ (outs.map Call.amountOut).sum ≤ sats.toNat ∧ sats.toNat ≤ maxMoney) ∧ tx'.ToBytes.length ≤ maxTxBytes ∧
          ∀ n < 2 ^ 32, L (H.sha256 (H.sha256 tx'.ToBytes) ++ leBytes 4 n) = none) ∧
      ∀ L', NodeAccepts H verify L tx'.ToBytes L' → L' (outpointOf txid vout) = none ∧
        ∀ n o, (outs.flatMap Call.outs)[n]? = some o → L' (H.sha256 (H.sha256 tx'.ToBytes) ++ leBytes 4 n) = some ⟨o.Satoshis, o.LockingScript⟩ := by
  intro calls
  obtain ⟨R, hR⟩ : ∃ R, (GetRedeemScript rs).1 = R := ⟨_, rfl⟩
  have hins : outs.flatMap Call.ins = [] := by
    rw [List.flatMap_eq_nil_iff]
    intro c hc
    have := hout c hc
    cases c with
    | fromUtxo t v s a => obtain ⟨-, h, hh, -⟩ := this; cases hh
    | addInput i => exact this.elim
    | addOutput o => rfl
    | payTo a s => rfl
  have hw : ∀ c ∈ calls, c.wellFormed := by
    intro c hc
    rcases List.mem_cons.mp hc with rfl | hc
    · exact (isHexString_iff _).mpr (isHex_encode _)
    · have := hout c hc
      cases c with
      | fromUtxo t v s a => obtain ⟨-, h, hh, -⟩ := this; cases hh
      | addInput i => exact this.elim
      | addOutput o => trivial
      | payTo a s => exact this
  have hb := built calls hw
  have hpay := hout
  have hol : ∀ o ∈ outs.flatMap Call.outs, o.LockingScript.length < 2 ^ 64 := payment_outputs hout
  obtain ⟨inp, hinp⟩ : ∃ inp : Input, inp = { PreviousTxID := txid, PreviousTxOutIndex := vout, PreviousTxSatoshis := sats, PreviousTxScript := some R, UnlockingScript := none, SequenceNumber := 0xffffffff } := ⟨_, rfl⟩
  obtain ⟨tx, htx⟩ : ∃ tx : Transaction, tx = { Transaction.New with Inputs := [inp], Outputs := outs.flatMap Call.outs } := ⟨_, rfl⟩
  have hcalls : applyCalls Transaction.New calls = .ok (tx, List.replicate calls.length true) := by
    rw [hb, htx, hinp]
    have e1 : calls.flatMap Call.ins = [{ PreviousTxID := txid, PreviousTxOutIndex := vout, PreviousTxSatoshis := sats, PreviousTxScript := some R, UnlockingScript := none, SequenceNumber := 0xffffffff }] := by
      simp only [calls, List.flatMap_cons, hins, Call.ins, hexDecodeIgnore_encode, hR, List.append_nil]
    have e2 : calls.flatMap Call.outs = outs.flatMap Call.outs := by
      simp only [calls, List.flatMap_cons, Call.outs, List.nil_append]
    rw [e1, e2]
  have hi1 : tx.Inputs = [inp] := by rw [htx]
  have ho1 : tx.Outputs = outs.flatMap Call.outs := by rw [htx]
  have hl1 : tx.Locktime = 0 := by rw [htx]; rfl
  have hRs : R.length < 2 ^ 11 := by rw [← hR]; exact redeem_small rs m hr hn.2 hk
  have houtl := outs_length outs
  have hs : Sized tx := by
    refine ⟨by rw [hi1]; simp, by rw [ho1]; omega, by rw [ho1]; exact hol, ?_⟩
    intro i hi s hsome
    rw [hi1, List.mem_singleton] at hi
    subst hi
    rw [hinp] at hsome
    injection hsome with hsome
    rw [← hsome]; omega
  have hidne : inp.PreviousTxID ≠ [] := by
    rw [hinp]
    intro e
    have := hid.1
    simp only at e
    rw [e] at this
    cases this
  obtain ⟨unl, r1, r2⟩ := C141_release H verify rs m hr hm hn hk ss hg hmany hkeys hord tx hs 0 inp (by rw [hi1]; rfl) hidne (by rw [hinp, hR])
  obtain ⟨tx', htx'⟩ : ∃ tx', tx' = withUnlocking tx (0 : UInt32).toNat unl := ⟨_, rfl⟩
  have hsame : SameButUnlocking tx tx' := by rw [htx']; exact withUnlocking_same tx _ _
  rw [← htx'] at r1 r2
  have hi2 : tx'.Inputs.map outpoint = [outpointOf txid vout] := by
    rw [outpoints_same hsame, hi1, hinp]; rfl
  have ho2 : tx'.Outputs = outs.flatMap Call.outs := by rw [← hsame.2.2.1, ho1]
  have ht2 : ∀ i ∈ tx'.Inputs, IsTxId i.PreviousTxID := txids_same hsame fun i hi => by
    rw [hi1, List.mem_singleton] at hi
    rw [hi, hinp]; exact hid
  have hlen1 : tx'.Inputs.length = 1 := by simpa using congrArg List.length hi2
  obtain ⟨n1, n2⟩ := node_accepts_iff H verify L tx' ht2 (by rw [← hsame.2.1]; exact hl1) (by
    intro k i hki
    have hk0 : k = 0 := by have := (List.getElem?_eq_some_iff.mp hki).1; omega
    subst hk0
    refine ⟨⟨sats, R⟩, ?_, ?_⟩
    · have := congrArg (·[0]?) hi2
      simp only [List.getElem?_map, hki, Option.map_some, List.getElem?_cons_zero, Option.some.injEq] at this
      rw [this, hL, hR]
    · rw [← hR]
      have : inp.PreviousTxSatoshis = sats := by rw [hinp]
      rw [← this]; exact r2)
  have hvi : valueIn L tx' = sats.toNat := by
    rw [valueIn_eq, hi2]
    simp [hL]
  have hvo : valueOut tx' = (outs.map Call.amountOut).sum := by
    show (tx'.Outputs.map (·.Satoshis.toNat)).sum = _
    rw [ho2, payment_valueOut]
  have houts : tx'.Outputs ≠ [] ↔ outs ≠ [] := by
    rw [ho2, not_iff_not, List.flatMap_eq_nil_iff]
    constructor
    · intro h
      rcases outs with _ | ⟨c, cs⟩
      · rfl
      · have h1 := h c (by simp)
        have h2 := hout c (by simp)
        cases c with
        | fromUtxo t v s a => obtain ⟨-, h, hh, -⟩ := h2; cases hh
        | addInput i => exact h2.elim
        | addOutput o => cases h1
        | payTo a s => cases h1
    · rintro rfl; simp
  refine ⟨tx, tx', hcalls, r1, ho2, ?_, ?_⟩
  · rw [n1, hvi, hvo, houts, hi2]
    have hin : tx'.Inputs ≠ [] := by intro e; rw [e] at hlen1; cases hlen1
    constructor
    · rintro ⟨⟨-, a2, -, a4, a5⟩, a6, a7⟩; exact ⟨⟨a2, a5, a4⟩, a6, a7⟩
    · rintro ⟨⟨a2, a5, a4⟩, a6, a7⟩; exact ⟨⟨hin, a2, by simp, a4, a5⟩, a6, a7⟩
  · intro L' hL'
    have hfresh := (n1.mp ⟨L', hL'⟩).2.2
    rw [n2 L' hL']
    have hlo : tx'.Outputs.length < 2 ^ 32 := by rw [ho2]; omega
    constructor
    · unfold Ledger.after
      rcases hlk : (created (H.sha256 (H.sha256 tx'.ToBytes)) tx').lookup (outpointOf txid vout) with _ | c
      · simp only [hi2, List.mem_singleton, if_true]
      · exfalso
        obtain ⟨n, hlt, e⟩ := created_mem (mem_of_lookup _ hlk)
        rw [e, hfresh n (by omega)] at hL
        cases hL
    · intro n o hn'
      have hnl := (List.getElem?_eq_some_iff.mp hn').1
      rw [after_output L _ tx' hlo hfresh n (by omega), ho2, hn']
      rfl

/-! ## Examples -/

/-- A toy owner: the signature is the key and the digest. -/
def exOwner (k : Bytes) : InternalSigner := { pubKey := k, sign := fun d => .ok (k ++ d.take 64), SigHashFlag := 0 }

/-- The check that goes with it. -/
def exOwnerVerify (pub d s : Bytes) : Bool := s == pub ++ d.take 64

/-- The node knows one output, with the script of 2 of 3 keys. -/
def exEscrow : Ledger := fun k => if k = outpointOf (List.replicate 64 49) 1 then some ⟨90, (GetRedeemScript exTwoOfThree).1⟩ else none

/-- What was agreed. -/
def exAgreed : List Call := [.payTo (Address.NewFromPublicKeyHash toyH (List.replicate 20 7) true).AddressString 80]

theorem exOwner_good (k : Bytes) (h1 : k ≠ []) (h2 : k.length < 100) : GoodSigner exOwnerVerify (exOwner k) := by
  refine ⟨⟨by show k.length < _; omega, ?_⟩, ⟨h1, show DefinedFlag 0x41 = true by decide⟩, fun d => ⟨k ++ d.take 64, rfl, by simp [exOwnerVerify, exOwner]⟩⟩
  intro d s h
  simp only [exOwner, Res.ok.injEq] at h
  rw [← h]
  simp only [List.length_append, List.length_take]
  omega

theorem exOwner_own (k d s pub : Bytes) (h : (exOwner k).sign d = .ok s) (h' : exOwnerVerify pub d s = true) : pub = (exOwner k).pubKey := by
  simp only [exOwner, Res.ok.injEq] at h
  simp only [exOwnerVerify, beq_iff_eq] at h'
  rw [← h] at h'
  exact (List.append_cancel_right h').symm

/-- What the two owners make of it. -/
def exReleased : Transaction :=
  match applyCalls Transaction.New (.fromUtxo (List.replicate 64 49) 1 (hexEncode (GetRedeemScript exTwoOfThree).1) 90 :: exAgreed) with
  | .ok (tx, _) => match release toyH tx 0 [exOwner [2, 4], exOwner [3, 9]] with
    | .ok t => t
    | _ => Transaction.New
  | _ => Transaction.New

/-- Two of the three owners release the output, and the node accepts it: it is gone afterwards and the 80 are there. -/
example : ∃ L', NodeAccepts toyH exOwnerVerify exEscrow exReleased.ToBytes L' ∧ L' (outpointOf (List.replicate 64 49) 1) = none ∧
    ∃ s, L' (toyH.sha256 (toyH.sha256 exReleased.ToBytes) ++ leBytes 4 0) = some ⟨80, s⟩ := by
  have hout : ∀ c ∈ exAgreed, PaymentCall exEscrow [] c := by
    intro c hc
    rw [exAgreed, List.mem_singleton] at hc
    subst hc
    show IsAddressLike _
    decide +kernel
  obtain ⟨tx, tx', h1, h2, h3, h4, h5⟩ := C141_release_node toyH exOwnerVerify exTwoOfThree 2 rfl (by decide) (by decide) (by decide) [exOwner [2, 4], exOwner [3, 9]]
    (by intro is h; rcases List.mem_cons.mp h with rfl | h
        · exact exOwner_good _ (by simp) (by simp)
        · rw [List.mem_singleton.mp h]; exact exOwner_good _ (by simp) (by simp)) rfl
    (by show List.Subperm [[2, 4], [3, 9]] [[3, 9], [2, 5], [2, 4]]; decide) (by show [[2, 4], [3, 9]].Pairwise lexLe; simp [lexLe]) exEscrow (List.replicate 64 49)
    (by unfold IsTxId; decide +kernel) 1 90 (by simp [exEscrow]) exAgreed hout (by decide)
  have hx : exReleased = tx' := by
    unfold exReleased
    rw [h1]
    simp only [h2]
  rw [hx]
  have hlen : tx'.ToBytes.length ≤ maxTxBytes := by rw [← hx]; decide +kernel
  have hfresh : ∀ n < 2 ^ 32, exEscrow (toyH.sha256 (toyH.sha256 tx'.ToBytes) ++ leBytes 4 n) = none := by
    intro n _
    unfold exEscrow
    rw [if_neg]
    intro e
    have e1 := congrArg (List.take 1) e
    rw [List.take_append_of_le_length (by rw [toyH.sha256_length]; decide)] at e1
    rw [← hx] at e1
    revert e1
    decide +kernel
  obtain ⟨L', hL'⟩ := h4.mpr ⟨⟨by simp [exAgreed], by decide, by decide⟩, hlen, hfresh⟩
  obtain ⟨g1, g2⟩ := h5 L' hL'
  obtain ⟨o, ho, hs⟩ : ∃ o, (exAgreed.flatMap Call.outs)[0]? = some o ∧ o.Satoshis = 80 := ⟨_, rfl, rfl⟩
  exact ⟨L', hL', g1, _, by rw [g2 0 o ho, hs]⟩

/-- A transaction that spends the output. -/
def exSpendEscrow : Transaction := { Transaction.New with
  Inputs := [{ PreviousTxID := List.replicate 64 49, PreviousTxOutIndex := 1, PreviousTxSatoshis := 90, PreviousTxScript := some (GetRedeemScript exTwoOfThree).1, UnlockingScript := none, SequenceNumber := 0xffffffff }] }

theorem exSpendEscrow_sized : Sized exSpendEscrow := by
  refine ⟨by simp [exSpendEscrow], by simp [exSpendEscrow, Transaction.New], by simp [exSpendEscrow, Transaction.New], ?_⟩
  intro i hi s hs
  rw [List.mem_singleton.mp hi, Option.some.injEq] at hs
  rw [← hs]
  have := redeem_small exTwoOfThree 2 rfl (by decide) (by decide)
  omega

/-- The other order is not accepted. -/
example : ∃ tx', release toyH exSpendEscrow 0 [exOwner [3, 9], exOwner [2, 4]] = .ok tx' ∧
    ¬ Accepted toyH exOwnerVerify tx' 0 (GetRedeemScript exTwoOfThree).1 90 := by
  obtain ⟨tx', h1, h2⟩ := C141_order toyH exOwnerVerify exTwoOfThree 2 rfl (by decide) (by decide) (by decide) [exOwner [3, 9], exOwner [2, 4]]
    (by intro is h; rcases List.mem_cons.mp h with rfl | h
        · exact exOwner_good _ (by simp) (by simp)
        · rw [List.mem_singleton.mp h]; exact exOwner_good _ (by simp) (by simp)) rfl
    (by show List.Subperm [[3, 9], [2, 4]] [[3, 9], [2, 5], [2, 4]]; decide)
    (by intro is h; rcases List.mem_cons.mp h with rfl | h
        · exact exOwner_own _
        · rw [List.mem_singleton.mp h]; exact exOwner_own _)
    exSpendEscrow exSpendEscrow_sized 0 _ rfl (by simp) rfl
  refine ⟨tx', h1, fun h => ?_⟩
  have := h2.mp h
  simp [exOwner, lexLe] at this

/-- The digest that two of the owners have signed. -/
def exEscrowDigest : Bytes := toyH.sha256 (toyH.sha256 (preimage (fun b => toyH.sha256 (toyH.sha256 b)) exReleased 0 (exReleased.Inputs.getD 0 Input.New) (GetRedeemScript exTwoOfThree).1 0x41))

/-- A check that accepts only the two signatures that were made. -/
def exTwoVerify (pub d s : Bytes) : Bool := exOwnerVerify pub d s && d == exEscrowDigest && pub != [2, 5]

/-- All three owners are as the theorems ask: two have signed one input, one nothing; and the transaction is accepted. -/
example : Owner toyH exTwoVerify [2, 4] 0x41 [(exReleased, 0)] ∧ Owner toyH exTwoVerify [3, 9] 0x41 [(exReleased, 0)] ∧ Owner toyH exTwoVerify [2, 5] 0x41 [] ∧
    Accepted toyH exTwoVerify exReleased 0 (GetRedeemScript exTwoOfThree).1 90 := by
  have hsz : ∀ q ∈ [(exReleased, 0)], Sized q.1 ∧ ∀ i ∈ q.1.Inputs, IsTxId i.PreviousTxID := by
    intro q hq
    rw [List.mem_singleton.mp hq]
    refine ⟨⟨by decide +kernel, by decide +kernel, by decide +kernel, ?_⟩, by unfold IsTxId; decide +kernel⟩
    have : ∀ i ∈ exReleased.Inputs, (i.PreviousTxScript.getD []).length < 2 ^ 64 := by decide +kernel
    intro i hi s hs
    have := this i hi
    rwa [hs] at this
  have ho : ∀ pub, OnlySigned toyH exTwoVerify pub 0x41 [(exReleased, 0)] := by
    intro pub d s h
    simp only [exTwoVerify, Bool.and_eq_true, beq_iff_eq] at h
    exact ⟨_, List.mem_singleton.mpr rfl, exReleased.Inputs.getD 0 Input.New, _, by decide +kernel, by decide +kernel, h.1.2⟩
  refine ⟨⟨ho _, hsz⟩, ⟨ho _, hsz⟩, ⟨fun d s h => by simp [exTwoVerify] at h, by simp⟩, ?_⟩
  have hu : (exReleased.Inputs[0]?).map (·.UnlockingScript) = some (some (([[], [2, 4] ++ exEscrowDigest.take 64 ++ [0x41], [3, 9] ++ exEscrowDigest.take 64 ++ [0x41]] : List Bytes).flatMap push)) := by decide +kernel
  obtain ⟨inp, hi, hu⟩ := Option.map_eq_some_iff.mp hu
  have hd : (exReleased.Inputs[0]?).map (fun i => toyH.sha256 (toyH.sha256 (preimage (fun b => toyH.sha256 (toyH.sha256 b)) exReleased 0 { i with PreviousTxSatoshis := 90 } (GetRedeemScript exTwoOfThree).1 0x41))) =
    some exEscrowDigest := by decide +kernel
  rw [hi, Option.map_some, Option.some.injEq] at hd
  refine (C86_redeem_iff toyH exTwoVerify exTwoOfThree 2 rfl (by decide) (by decide) (by decide) [[2, 4], [2, 5], [3, 9]] (by decide) exTwoOfThree_sorted _ 0 90).mpr
    ⟨inp, _, _, hi, hu, (pushes_iff _ _ (by decide +kernel)).mpr rfl, [], [], _, [[2, 4], [3, 9]], rfl, rfl, by decide,
      .cons ⟨_, 0x41, rfl, by decide, ?_⟩ (.cons ⟨_, 0x41, rfl, by decide, ?_⟩ .nil)⟩ <;>
  · rw [hd]; simp [exTwoVerify, exOwnerVerify]

/-- With one owner who signs and two who do not there are too few. -/
example : (∀ pub ∈ [[2, 5], [2, 4]], Owner toyH (fun p d s => exOwnerVerify p d s && p == [3, 9]) pub 0x41 []) ∧
    (exTwoOfThree.PublicKeys.filter fun k => decide (k ∉ [[2, 5], [2, 4]])).length < 2 := by
  refine ⟨fun pub hp => ⟨fun d s h => ?_, by simp⟩, by decide⟩
  simp only [Bool.and_eq_true, beq_iff_eq] at h
  rw [h.2] at hp
  exact absurd hp (by decide)

end Verif.Props
