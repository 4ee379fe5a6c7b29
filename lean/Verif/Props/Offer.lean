import Verif.Spec.Offer
import Verif.Props.Pledge
/-!
# C134: offers that anyone can take up
-/
namespace Verif.Props
open Verif Spec Transaction

/-- The seller, with the library: makes the calls on a new transaction and signs. -/
def offer (H : HashFns) (is : InternalSigner) (calls : List Call) : Res Bytes := do
  let (tx, _) ← applyCalls Transaction.New calls
  let tx ← is.SignAuto H tx
  pure tx.ToBytes

/-- The buyer, with the library: parses the offer, adds coins and outputs, and signs with the keys of these coins. -/
def takeUp (H : HashFns) (signers : List InternalSigner) (calls : List Call) (b : Bytes) : Res Bytes := do
  let tx ← NewFromBytes (Slice.exact b)
  let (tx, _) ← applyCalls tx calls
  let tx ← signWithAll H signers tx
  pure tx.ToBytes

/-- Signing leaves the inputs alone whose previous script the library does not know. -/
theorem signWithAll_unknown (H : HashFns) (verify : Bytes → Bytes → Bytes → Bool) (tx : Transaction) (hs : Sized tx) (hr : ReadableScripts tx) (k : Nat) (inp : Input) 
    (hn : inp.PreviousTxScript = none) : ∀ (signers : List InternalSigner), (∀ is ∈ signers, GoodSigner verify is) → ∀ t tx', SameButUnlocking tx t → t.Inputs[k]? = some inp → signWithAll H signers t = .ok tx' →
      tx'.Inputs[k]? = some inp := by
  intro signers
  induction signers with
  | nil =>
    intro _ t tx' _ h1 h2
    have : t = tx' := by simpa [signWithAll] using h2
    rw [← this]; exact h1
  | cons is signers ih =>
    intro hg t tx' hst h1 h2
    obtain ⟨t1, s1, s2, s3⟩ := signAuto_good H verify is (hg is (by simp)) t (sized_same hs hst) (readable_same hst hr)
    refine ih (fun x hx => hg x (by simp [hx])) t1 tx' (hst.trans s2) ((s3 k inp h1).1 ?_) ?_
    · rintro ⟨-, s, e, -⟩
      rw [hn] at e; cases e
    · unfold signWithAll at h2 ⊢
      rw [List.foldlM_cons, s1] at h2
      exact h2

/-- An input with a signature, for a coin of `L`, that is good at its position in every transaction with the output `o` there. -/
def SignedAt (H : HashFns) (verify : Bytes → Bytes → Bytes → Bool) (L : Ledger) (k : Nat) (outs : List Output) (i : Input) : Prop :=
  IsTxId i.PreviousTxID ∧ ∃ pub sig flag sats, L (outpoint i) = some ⟨sats, p2pkh (H.ripemd160 (H.sha256 pub))⟩ ∧ i.UnlockingScript = some (unlocking sig flag pub) ∧ sig.length + 1 < 2 ^ 32 ∧ pub.length < 2 ^ 32 ∧ pub ≠ [] ∧
    DefinedFlag flag = true ∧ anyoneCanPay flag = true ∧ isNone flag = false ∧ isSingle flag = true ∧
    verify pub (H.sha256 (H.sha256 (preimage (fun b => H.sha256 (H.sha256 b)) { Transaction.New with Outputs := outs } k { i with PreviousTxSatoshis := sats } (p2pkh (H.ripemd160 (H.sha256 pub))) flag))) sig = true

theorem outputsString_single {tx t : Transaction} {k j : Nat} {flag : UInt8} (h1 : isNone flag = false) (h2 : isSingle flag = true) (h : t.Outputs[j]? = tx.Outputs[k]?) : outputsString t j flag = outputsString tx k flag := by
  unfold outputsString; rw [h1, h2, h]; rfl

theorem signedAt_accepted {H : HashFns} {verify : Bytes → Bytes → Bytes → Bool} {L : Ledger} {tx : Transaction} (hv : tx.Version = Transaction.New.Version) (hl : tx.Locktime = Transaction.New.Locktime) {k : Nat} {i : Input}
    {outs : List Output} (ho : tx.Outputs[k]? = outs[k]?) (hi : tx.Inputs[k]? = some i) (h : SignedAt H verify L k outs i) : ∃ c, L (outpoint i) = some c ∧ Accepted H verify tx k c.script c.sats := by
  obtain ⟨-, pub, sig, flag, sats, h1, h2, h3, h4, h5, h6, h7, h8, h9, h10⟩ := h
  refine ⟨_, h1, accepted_of_unlocking H verify tx k i sig pub flag sats hi h2 h3 h4 h5 h6 ?_⟩
  rw [← h10]
  congr 3
  exact preimage_acp _ h7 hv hl rfl rfl rfl (outputsString_single h8 h9 ho)

/-- What a goal call asks to be paid. -/
theorem goal_outs {c : Call} (h : GoalCall c) : ∃ o, c.outs = [o] := by
  cases c <;> first | exact h.elim | exact ⟨_, rfl⟩

theorem goals_outs : ∀ (goal : List Call), (∀ c ∈ goal, GoalCall c) → (goal.flatMap Call.outs).map (fun o => [o]) = goal.map Call.outs
  | [], _ => rfl
  | c :: cs, h => by
    obtain ⟨o, ho⟩ := goal_outs (h c (by simp))
    rw [List.flatMap_cons, List.map_append, goals_outs cs fun x hx => h x (by simp [hx]), List.map_cons, ho]
    rfl

/-- One offer: it is made without failing, and its inputs, as the buyer reads them, carry signatures that are good with the outputs asked for. -/
theorem offer_good (H : HashFns) (verify : Bytes → Bytes → Bytes → Bool) (L : Ledger) (is : InternalSigner) (hg : GoodSigner verify is)
    (hf : anyoneCanPay (flagOrDefault is.SigHashFlag) = true ∧ isSingle (flagOrDefault is.SigHashFlag) = true)
    (coins : List WalletCoin) (goal : List Call) (hgoal : ∀ c ∈ goal, GoalCall c) (hc : ∀ w ∈ coins, CoinOf L (H.ripemd160 (H.sha256 is.pubKey)) w) (hlens : coins.length + goal.length < 2 ^ 31) :
    ∃ b, offer H is (coinCalls coins ++ goal) = .ok b ∧ (b.length < 2 ^ 62 → ∃ t, NewFromBytes (Slice.exact b) = .ok t ∧ t.Version = Transaction.New.Version ∧ t.Locktime = Transaction.New.Locktime ∧
      t.Outputs = goal.flatMap Call.outs ∧ t.Inputs.map outpoint = coins.map WalletCoin.key ∧
      ∀ k i, t.Inputs[k]? = some i → i.PreviousTxScript = none ∧ SignedAt H verify L k (goal.flatMap Call.outs) i) := by
  have hnone : isNone (flagOrDefault is.SigHashFlag) = false := by
    have := hf.2
    unfold isSingle at this; unfold isNone
    rw [decide_eq_true_iff] at this
    rw [this]; decide
  unfold offer
  obtain ⟨f1, f2, f3⟩ := coinCalls_flat coins goal hgoal
  have hpc := coin_payment (hashes := [H.ripemd160 (H.sha256 is.pubKey)]) hgoal fun w hw => ⟨_, List.mem_singleton.mpr rfl, hc w hw⟩
  have hb := built _ (payment_wellFormed hpc)
  obtain ⟨tx, htx⟩ : ∃ tx : Transaction, tx = { Transaction.New with Inputs := (coinCalls coins ++ goal).flatMap Call.ins, Outputs := (coinCalls coins ++ goal).flatMap Call.outs } := ⟨_, rfl⟩
  rw [← htx] at hb
  have hi1 : tx.Inputs = (coinCalls coins ++ goal).flatMap Call.ins := by rw [htx]
  have ho1 : tx.Outputs = (coinCalls coins ++ goal).flatMap Call.outs := by rw [htx]
  obtain ⟨l1, l2⟩ := ins_length (coinCalls coins ++ goal)
  have hll : (coinCalls coins ++ goal).length = coins.length + goal.length := by simp [coinCalls]
  have hpi := payment_inputs hpc
  rw [← hi1] at hpi
  have h20 := H.ripemd160_length (H.sha256 is.pubKey)
  have hpi' : ∀ i ∈ tx.Inputs, IsTxId i.PreviousTxID ∧ i.PreviousTxScript = some (p2pkh (H.ripemd160 (H.sha256 is.pubKey))) ∧ L (outpoint i) = some ⟨i.PreviousTxSatoshis, p2pkh (H.ripemd160 (H.sha256 is.pubKey))⟩ := by
    intro i hi
    obtain ⟨a, ⟨h, hm, b, c⟩, -⟩ := hpi i hi
    rw [List.mem_singleton.mp hm] at b c
    exact ⟨a, b, c⟩
  have hs : Sized tx := by
    refine ⟨by rw [hi1]; omega, by rw [ho1]; omega, by rw [ho1]; exact payment_outputs hpc, ?_⟩
    intro i hi s hsome
    rw [(hpi' i hi).2.1] at hsome
    injection hsome with hsome
    rw [← hsome]; simp [p2pkh, h20]
  have hrd : ReadableScripts tx := fun i hi hpan => by
    rw [(hpi' i hi).2.1, p2pkh, C14_getPublicKeyHash _ h20] at hpan
    cases hpan
  obtain ⟨tx', s1, s2, s3⟩ := signAuto_good H verify is hg tx hs hrd
  have ht' := txids_same s2 fun i hi => (hpi' i hi).1
  refine ⟨tx'.ToBytes, ?_, fun hcap => ⟨wireTx tx', C33_parse_serialise tx' ht' [] (by simpa using hcap), ?_, ?_, ?_, ?_, ?_⟩⟩
  · rw [hb, Res.ok_bind]
    simp only [s1, Res.ok_bind]
    rfl
  · show tx'.Version = _
    rw [← s2.1, htx]
  · show tx'.Locktime = _
    rw [← s2.2.1, htx]
  · show tx'.Outputs = _
    rw [← s2.2.2.1, ho1, f1]
  · rw [wire_outpoints tx' ht', outpoints_same s2, hi1, payment_outpoints L _ _ hpc, f2]
  · intro k i' hki'
    simp only [wireTx, List.getElem?_map, Option.map_eq_some_iff] at hki'
    obtain ⟨i, hk, rfl⟩ := hki'
    refine ⟨rfl, ?_⟩
    have him := List.mem_of_getElem? hk
    have hlt : k < tx.Inputs.length := by
      have e1 := (List.getElem?_eq_some_iff.mp hk).1
      have := congrArg List.length s2.2.2.2
      simp only [List.length_map] at this
      omega
    obtain ⟨inp, hki⟩ : ∃ inp, tx.Inputs[k]? = some inp := ⟨_, List.getElem?_eq_getElem hlt⟩
    obtain ⟨a, b, c⟩ := hpi' inp (List.mem_of_getElem? hki)
    have hne : inp.PreviousTxID ≠ [] := by intro e; have := a.1; rw [e] at this; simp at this
    obtain ⟨-, s, q1, q2⟩ := selected_p2pkh _ h20 inp hne b
    rw [b] at q1; injection q1 with q1; subst q1
    obtain ⟨sig, g1, g2, g3⟩ := (s3 k inp hki).2 _ hne b q2
    rw [hk] at g1; injection g1 with g1
    have hid := ht' i him
    have hop : outpoint (wireInput i) = outpoint inp := by
      rw [wireInput_outpoint i hid, g1]; rfl
    obtain ⟨hz, ⟨hp, hdf⟩, -⟩ := hg
    refine ⟨(isTxId_lower _).mpr hid, is.pubKey, sig, flagOrDefault is.SigHashFlag, inp.PreviousTxSatoshis, by rw [hop]; exact c, ?_, g2, hz.1, hp, hdf, hf.1, hnone, hf.2, ?_⟩
    · rw [g1]; rfl
    · rw [← g3]
      congr 3
      refine preimage_acp _ hf.1 (by rw [htx]) (by rw [htx]) hop rfl ?_ (outputsString_single hnone hf.2 ?_)
      · rw [g1]; rfl
      · show (goal.flatMap Call.outs)[k]? = tx.Outputs[k]?
        rw [ho1, f1]

theorem paymentCall_mono {L : Ledger} {hs hs' : List Bytes} (h : ∀ x ∈ hs, x ∈ hs') {c : Call} (hc : PaymentCall L hs c) : PaymentCall L hs' c := by
  cases c with
  | fromUtxo t v s sats => obtain ⟨a, x, hx, b⟩ := hc; exact ⟨a, x, h x hx, b⟩
  | payTo a sats => exact hc
  | addOutput o => exact hc
  | addInput i => exact hc

theorem built_from (tx : Transaction) (calls : List Call) (hw : ∀ c ∈ calls, c.wellFormed) :
    applyCalls tx calls = .ok ({ tx with Inputs := tx.Inputs ++ calls.flatMap Call.ins, Outputs := tx.Outputs ++ calls.flatMap Call.outs }, List.replicate calls.length true) := by
  have h1 : calls.filter (decide ·.wellFormed) = calls := List.filter_eq_self.mpr fun c hc => decide_eq_true (hw c hc)
  have h2 : calls.map (decide ·.wellFormed) = List.replicate calls.length true := by
    rw [List.eq_replicate_iff]
    refine ⟨by simp, fun b hb => ?_⟩
    obtain ⟨c, hc, rfl⟩ := List.mem_map.mp hb
    exact decide_eq_true (hw c hc)
  rw [C41_history_from, h1, h2]

/-- A transaction of which some inputs come signed for the outputs at their positions, and the others are signed now. -/
theorem mixed_accepted (H : HashFns) (verify : Bytes → Bytes → Bytes → Bool) (L : Ledger) (signers : List InternalSigner) (hgs : ∀ s ∈ signers, GoodSigner verify s) (tx : Transaction) (outs : List Output)
    (hv : tx.Version = Transaction.New.Version) (hl : tx.Locktime = Transaction.New.Locktime) (hi : tx.Inputs.length < 2 ^ 31) (ho : tx.Outputs.length < 2 ^ 31) (hos : ∀ o ∈ tx.Outputs, o.LockingScript.length < 2 ^ 64)
    (hin : ∀ k i, tx.Inputs[k]? = some i → (i.PreviousTxScript = none ∧ SignedAt H verify L k outs i ∧ tx.Outputs[k]? = outs[k]?) ∨
      (IsTxId i.PreviousTxID ∧ ∃ h ∈ keyHashes H signers, i.PreviousTxScript = some (p2pkh h) ∧ L (outpoint i) = some ⟨i.PreviousTxSatoshis, p2pkh h⟩)) :
    ∃ tx', signWithAll H signers tx = .ok tx' ∧ SameButUnlocking tx tx' ∧ (∀ i ∈ tx'.Inputs, IsTxId i.PreviousTxID) ∧
      ∀ k inp, tx'.Inputs[k]? = some inp → ∃ c, L (outpoint inp) = some c ∧ Accepted H verify tx' k c.script c.sats := by
  have h20 : ∀ h ∈ keyHashes H signers, h.length = 20 := by
    intro h hm
    obtain ⟨s, -, rfl⟩ := List.mem_map.mp hm
    exact H.ripemd160_length _
  have hin' : ∀ i ∈ tx.Inputs, IsTxId i.PreviousTxID ∧ (i.PreviousTxScript = none ∨ ∃ h ∈ keyHashes H signers, i.PreviousTxScript = some (p2pkh h)) := by
    intro i hm
    obtain ⟨k, hk⟩ := List.mem_iff_getElem?.mp hm
    rcases hin k i hk with ⟨a, b, -⟩ | ⟨a, h, b, c, -⟩
    · exact ⟨b.1, .inl a⟩
    · exact ⟨a, .inr ⟨h, b, c⟩⟩
  have hs : Sized tx := by
    refine ⟨by omega, by omega, hos, ?_⟩
    intro i hi s hsome
    rcases (hin' i hi).2 with h | ⟨h, hm, h1⟩
    · rw [h] at hsome; cases hsome
    · rw [h1] at hsome
      injection hsome with hsome
      rw [← hsome]; simp [p2pkh, h20 h hm]
  have hrd : ReadableScripts tx := fun i hi hpan => by
    rcases (hin' i hi).2 with h | ⟨h, hm, h1⟩
    · rw [h] at hpan; cases hpan
    · rw [h1, p2pkh, C14_getPublicKeyHash _ (h20 h hm)] at hpan
      cases hpan
  obtain ⟨tx', s1, s2, s3⟩ := C70_signed_accepted H verify signers hgs tx hs hrd
  have hlen2 : tx'.Inputs.length = tx.Inputs.length := by
    have := congrArg List.length s2.2.2.2
    simpa using this.symm
  refine ⟨tx', s1, s2, txids_same s2 fun i hi => (hin' i hi).1, fun k inp hk => ?_⟩
  have hlt : k < tx.Inputs.length := by
    have := (List.getElem?_eq_some_iff.mp hk).1
    omega
  obtain ⟨i, hki⟩ : ∃ i, tx.Inputs[k]? = some i := ⟨_, List.getElem?_eq_getElem hlt⟩
  obtain ⟨i', g1, g2, g3, g4, g5, g6⟩ := input_same_full s2 k i hki
  rw [hk] at g1; injection g1 with g1; subst g1
  rcases hin k i hki with ⟨a1, a2, a3⟩ | ⟨a, h, hh, b1, b2⟩
  · have hsame := signWithAll_unknown H verify tx hs hrd k i a1 signers hgs tx tx' (SameButUnlocking.refl _) hki s1
    rw [hk] at hsame; injection hsame with hsame; subst hsame
    exact signedAt_accepted (by rw [← s2.1]; exact hv) (by rw [← s2.2.1]; exact hl) (by rw [← s2.2.2.1]; exact a3) hk a2
  · obtain ⟨s, hsm, rfl⟩ := List.mem_map.mp hh
    have hne : i.PreviousTxID ≠ [] := by intro e; have := a.1; rw [e] at this; simp at this
    refine ⟨⟨i.PreviousTxSatoshis, p2pkh (H.ripemd160 (H.sha256 s.pubKey))⟩, ?_, s3 s hsm k i hki hne b1⟩
    rw [← b2]
    congr 1
    unfold outpoint
    rw [g2, g3]

/-- When the node accepts it, in terms of calls that spend and pay the same. -/
theorem mixed_node (H : HashFns) (verify : Bytes → Bytes → Bytes → Bool) (L : Ledger) (tx' : Transaction) (ht' : ∀ i ∈ tx'.Inputs, IsTxId i.PreviousTxID) (htk : tx'.Locktime = 0)
    (hacc : ∀ k inp, tx'.Inputs[k]? = some inp → ∃ c, L (outpoint inp) = some c ∧ Accepted H verify tx' k c.script c.sats) (hashes : List Bytes) (all : List Call) (hpc : ∀ c ∈ all, PaymentCall L hashes c)
    (hto : tx'.Outputs = all.flatMap Call.outs) (hti : tx'.Inputs.map outpoint = all.flatMap Call.spent) :
    ((∃ L', NodeAccepts H verify L tx'.ToBytes L') ↔ Payable all ∧ tx'.ToBytes.length ≤ maxTxBytes ∧ ∀ n < 2 ^ 32, L (H.sha256 (H.sha256 tx'.ToBytes) ++ leBytes 4 n) = none) ∧
      ∀ L', NodeAccepts H verify L tx'.ToBytes L' → ∃ tx, tx.Outputs = all.flatMap Call.outs ∧ tx.Inputs.map outpoint = all.flatMap Call.spent ∧ L' = L.after (H.sha256 (H.sha256 tx'.ToBytes)) tx := by
  obtain ⟨n1, n2⟩ := node_accepts_iff H verify L tx' ht' htk hacc
  have hvi : valueIn L tx' = (all.map Call.amountIn).sum := by
    rw [valueIn_eq, hti, payment_valueIn L _ _ hpc]
  have hvo : valueOut tx' = (all.map Call.amountOut).sum := by
    rw [← payment_valueOut, ← hto]; rfl
  refine ⟨?_, fun L' h => ⟨tx', hto, hti, n2 L' h⟩⟩
  rw [n1]
  have hflat : ∀ (f : Call → List Bytes), (∃ c ∈ all, f c ≠ []) ↔ all.flatMap f ≠ [] := by
    intro f; rw [ne_eq, List.flatMap_eq_nil_iff]; push Not; rfl
  have hflat' : ∀ (f : Call → List Output), (∃ c ∈ all, f c ≠ []) ↔ all.flatMap f ≠ [] := by
    intro f; rw [ne_eq, List.flatMap_eq_nil_iff]; push Not; rfl
  have hine : tx'.Inputs ≠ [] ↔ all.flatMap Call.spent ≠ [] := by
    rw [← hti]; simp
  have hpay : (tx'.Inputs ≠ [] ∧ tx'.Outputs ≠ [] ∧ (tx'.Inputs.map outpoint).Nodup ∧ valueIn L tx' ≤ maxMoney ∧ valueOut tx' ≤ valueIn L tx') ↔ Payable all := by
    constructor
    · rintro ⟨p1, p2, p3, p4, p5⟩
      exact ⟨(hflat _).mpr (hine.mp p1), (hflat' _).mpr (by rw [← hto]; exact p2), by rw [← hti]; exact p3, by rw [← hvi]; exact p4, by rw [← hvi, ← hvo]; exact p5⟩
    · rintro ⟨p1, p2, p3, p4, p5⟩
      exact ⟨hine.mpr ((hflat _).mp p1), by rw [hto]; exact (hflat' _).mp p2, by rw [hti]; exact p3, by rw [hvi]; exact p4, by rw [hvi, hvo]; exact p5⟩
  rw [hpay]

/-- C134 (a): a seller with a key that signs with SINGLE and ANYONECANPAY offers coins, and asks a payment for each. A buyer parses the offer, adds coins and outputs and signs with the keys of these coins (whatever their flags).
Nothing fails, and a node accepts the bytes exactly if all the coins together are worth what all the outputs pay, and none is spent twice (and there is something to spend and to pay, the bytes are not too many and no other transaction
has the same hash). Then the coins of both are spent and what both want is paid. -/
theorem C134_take (H : HashFns) (verify : Bytes → Bytes → Bytes → Bool) (L : Ledger) (is : InternalSigner) (hg : GoodSigner verify is)
    (hf : anyoneCanPay (flagOrDefault is.SigHashFlag) = true ∧ isSingle (flagOrDefault is.SigHashFlag) = true)
    (deals : List (WalletCoin × Call)) (hd : ∀ d ∈ deals, CoinOf L (H.ripemd160 (H.sha256 is.pubKey)) d.1 ∧ GoalCall d.2)
    (signers : List InternalSigner) (hgs : ∀ s ∈ signers, GoodSigner verify s) (calls : List Call) (hc : ∀ c ∈ calls, PaymentCall L (keyHashes H signers) c)
    (hlen : 2 * deals.length + calls.length < 2 ^ 31) (hcap : ∀ b, offer H is (offerCalls deals) = .ok b → b.length < 2 ^ 62) :
    ∃ b b', offer H is (offerCalls deals) = .ok b ∧ takeUp H signers calls b = .ok b' ∧
      ((∃ L', NodeAccepts H verify L b' L') ↔ Payable (offerCalls deals ++ calls) ∧ b'.length ≤ maxTxBytes ∧ ∀ n < 2 ^ 32, L (H.sha256 (H.sha256 b') ++ leBytes 4 n) = none) ∧
      ∀ L', NodeAccepts H verify L b' L' → ∃ tx, tx.Outputs = (offerCalls deals ++ calls).flatMap Call.outs ∧ tx.Inputs.map outpoint = (offerCalls deals ++ calls).flatMap Call.spent ∧ L' = L.after (H.sha256 (H.sha256 b')) tx := by
  have hgoal : ∀ c ∈ deals.map (·.2), GoalCall c := fun c hc => by
    obtain ⟨d, hdm, rfl⟩ := List.mem_map.mp hc
    exact (hd d hdm).2
  have hcoin : ∀ w ∈ deals.map (·.1), CoinOf L (H.ripemd160 (H.sha256 is.pubKey)) w := fun c hc => by
    obtain ⟨d, hdm, rfl⟩ := List.mem_map.mp hc
    exact (hd d hdm).1
  obtain ⟨b, e1, e2⟩ := offer_good H verify L is hg hf (deals.map (·.1)) (deals.map (·.2)) hgoal hcoin (by simp only [List.length_map]; omega)
  obtain ⟨t, e3, e4, e5, e6, e7, e8⟩ := e2 (hcap b e1)
  obtain ⟨f1, f2, f3⟩ := coinCalls_flat (deals.map (·.1)) (deals.map (·.2)) hgoal
  obtain ⟨all, hall⟩ : ∃ all, all = offerCalls deals ++ calls := ⟨_, rfl⟩
  have hpc : ∀ c ∈ all, PaymentCall L (H.ripemd160 (H.sha256 is.pubKey) :: keyHashes H signers) c := by
    intro c hm
    rw [hall] at hm
    rcases List.mem_append.mp hm with hm | hm
    · exact coin_payment hgoal (fun w hw => ⟨_, List.mem_cons_self, hcoin w hw⟩) c hm
    · exact paymentCall_mono (fun x hx => List.mem_cons_of_mem _ hx) (hc c hm)
  have hspent : all.flatMap Call.spent = t.Inputs.map outpoint ++ calls.flatMap Call.spent := by
    rw [hall, List.flatMap_append, e7, ← f2]; rfl
  have houts : all.flatMap Call.outs = t.Outputs ++ calls.flatMap Call.outs := by
    rw [hall, List.flatMap_append, e6, ← f1]; rfl
  obtain ⟨t2, ht2⟩ : ∃ t2 : Transaction, t2 = { t with Inputs := t.Inputs ++ calls.flatMap Call.ins, Outputs := t.Outputs ++ calls.flatMap Call.outs } := ⟨_, rfl⟩
  have hb := built_from t calls (payment_wellFormed hc)
  rw [← ht2] at hb
  have hi2 : t2.Inputs = t.Inputs ++ calls.flatMap Call.ins := by rw [ht2]
  have ho2 : t2.Outputs = all.flatMap Call.outs := by rw [ht2, houts]
  have hpi := payment_inputs hc
  have htl : t.Inputs.length = deals.length := by
    have := congrArg List.length e7
    simpa using this
  obtain ⟨l1, -⟩ := ins_length calls
  obtain ⟨-, l2⟩ := ins_length all
  have hal : all.length = 2 * deals.length + calls.length := by
    rw [hall]; simp only [offerCalls, coinCalls, List.length_append, List.length_map]; omega
  obtain ⟨tx', s1, s2, ht', hacc⟩ := mixed_accepted H verify L signers hgs t2 ((deals.map (·.2)).flatMap Call.outs) (by rw [ht2]; exact e4) (by rw [ht2]; exact e5)
    (by rw [hi2, List.length_append]; omega) (by rw [ho2]; omega) (by rw [ho2]; exact payment_outputs hpc) (by
      intro k i hki
      by_cases hkt : k < t.Inputs.length
      · have hkt' : t.Inputs[k]? = some i := by rw [← hki, hi2, List.getElem?_append_left hkt]
        refine .inl ⟨(e8 k i hkt').1, (e8 k i hkt').2, ?_⟩
        rw [ho2, houts, ← e6, List.getElem?_append_left]
        rw [e6]
        have := congrArg List.length (goals_outs _ hgoal)
        simp only [List.length_map] at this
        omega
      · rw [hi2, List.getElem?_append_right (by omega)] at hki
        obtain ⟨a, b, -⟩ := hpi i (List.mem_of_getElem? hki)
        exact .inr ⟨a, b⟩)
  have hto : tx'.Outputs = all.flatMap Call.outs := by rw [← s2.2.2.1, ho2]
  have hti : tx'.Inputs.map outpoint = all.flatMap Call.spent := by
    rw [outpoints_same s2, hi2, List.map_append, payment_outpoints L _ _ hc, hspent]
  obtain ⟨m1, m2⟩ := mixed_node H verify L tx' ht' (by rw [← s2.2.1, ht2]; exact e5) hacc _ all hpc hto hti
  rw [hall] at m1 m2
  refine ⟨b, tx'.ToBytes, e1, ?_, m1, m2⟩
  unfold takeUp
  rw [e3, Res.ok_bind, hb, Res.ok_bind]
  simp only [s1, Res.ok_bind]
  rfl

theorem coinCalls_ins : ∀ (coins : List WalletCoin), ((coinCalls coins).flatMap Call.ins).map outpoint = coins.map WalletCoin.key
  | [] => rfl
  | w :: ws => by
    have ih := coinCalls_ins ws
    unfold coinCalls at ih ⊢
    rw [List.map_cons, List.flatMap_cons, List.map_append, ih, List.map_cons]
    rfl

/-- C134 (b): the seller's coins are safe. If the key has signed offers and nothing else, then through any history of transactions that a node accepts, whoever made them, a coin of the key stays unspent, unless a transaction takes it
that has, at the same position, an output paying exactly what was asked for this coin; or there is a collision of a hash function. -/
theorem C134_safe (H : HashFns) (verify : Bytes → Bytes → Bytes → Bool) (pub : Bytes) (flag : UInt8) (hf : isSingle flag = true) (given : List (List (WalletCoin × Call)))
    (hgiven : ∀ deals ∈ given, (∀ d ∈ deals, IsTxId d.1.txid ∧ IsHexString d.1.scriptHex ∧ d.1.scriptHex.length < 2 ^ 64 ∧ GoalCall d.2) ∧ 2 * deals.length < 2 ^ 31)
    (honly : OnlySigned H verify pub flag (given.flatMap fun deals => inputsOf (offerCalls deals)))
    (bs : List Bytes) (L L' : Ledger) (hacc : NodeAcceptsAll H verify L bs L') (key : Bytes) (sats : UInt64) (hk : L key = some ⟨sats, p2pkh (H.ripemd160 (H.sha256 pub))⟩) :
    L' key = L key ∨
    (∃ b ∈ bs, ∃ tx, IsTx MinCompactSize tx b ∧ ∃ deals ∈ given, ∃ d ∈ deals, d.1.key = key ∧
      ∃ (j : Nat) (inp : Input) (o : Output), tx.Inputs[j]? = some inp ∧ outpoint inp = key ∧ d.2.outs = [o] ∧ tx.Outputs[j]? = some o) ∨
    (∃ b ∈ bs, ∃ tx j, IsTx MinCompactSize tx b ∧ (KeyCollision H pub tx j ∨
      ∃ q ∈ given.flatMap fun deals => inputsOf (offerCalls deals), DigestCollision H flag q.1 q.2 tx j ⟨sats, p2pkh (H.ripemd160 (H.sha256 pub))⟩)) := by
  have hgoal : ∀ deals ∈ given, ∀ c ∈ deals.map (·.2), GoalCall c := fun deals hp c hc => by
    obtain ⟨d, hdm, rfl⟩ := List.mem_map.mp hc
    exact ((hgiven deals hp).1 d hdm).2.2.2
  have hcoin : ∀ deals ∈ given, ∀ w ∈ deals.map (·.1), IsTxId w.txid ∧ IsHexString w.scriptHex ∧ w.scriptHex.length < 2 ^ 64 := fun deals hp c hc => by
    obtain ⟨d, hdm, rfl⟩ := List.mem_map.mp hc
    have := (hgiven deals hp).1 d hdm
    exact ⟨this.1, this.2.1, this.2.2.1⟩
  have hbuilt : ∀ deals ∈ given, ∀ q ∈ inputsOf (offerCalls deals), q.1.Inputs = (coinCalls (deals.map (·.1))).flatMap Call.ins ∧ q.1.Outputs = (deals.map (·.2)).flatMap Call.outs := by
    intro deals hp q hq
    obtain ⟨f1, -, f3⟩ := coinCalls_flat (deals.map (·.1)) (deals.map (·.2)) (hgoal deals hp)
    have := built (offerCalls deals) (fun c hc => by
      rcases List.mem_append.mp hc with hc | hc
      · obtain ⟨w, hw, rfl⟩ := List.mem_map.mp hc
        exact (hcoin deals hp w hw).2.1
      · have := hgoal deals hp c hc
        cases c <;> first | exact this.elim | exact this | trivial)
    rw [inputsOf, this] at hq
    obtain ⟨k, -, rfl⟩ := List.mem_map.mp hq
    exact ⟨f3, f1⟩
  have hins : ∀ deals ∈ given, ∀ i ∈ (coinCalls (deals.map (·.1))).flatMap Call.ins, IsTxId i.PreviousTxID ∧ (∀ s, i.PreviousTxScript = some s → s.length < 2 ^ 64) := by
    intro deals hp i hi
    obtain ⟨c, hc, hic⟩ := List.mem_flatMap.mp hi
    obtain ⟨w, hw, rfl⟩ := List.mem_map.mp hc
    obtain ⟨b1, b2, b3⟩ := hcoin deals hp w hw
    rw [List.mem_singleton.mp hic]
    refine ⟨b1, fun s' hs' => ?_⟩
    injection hs' with hs'
    rw [← hs']
    have := hexDecodeIgnore_length ((isHexString_iff _).mp b2)
    omega
  have hsz : ∀ q ∈ given.flatMap fun deals => inputsOf (offerCalls deals), Sized q.1 ∧ ∀ i ∈ q.1.Inputs, IsTxId i.PreviousTxID := by
    intro q hq
    obtain ⟨deals, hp, hq⟩ := List.mem_flatMap.mp hq
    obtain ⟨e1, e2⟩ := hbuilt deals hp q hq
    have l1 := (ins_length (coinCalls (deals.map (·.1)))).1
    have l2 := (ins_length (deals.map (·.2))).2
    have l3 : (coinCalls (deals.map (·.1))).length = deals.length := by simp [coinCalls]
    have l4 : (deals.map (·.2)).length = deals.length := by simp
    have := (hgiven deals hp).2
    refine ⟨⟨by rw [e1]; omega, by rw [e2]; omega, ?_, ?_⟩, ?_⟩
    · rw [e2]
      exact payment_outputs (L := L) (hashes := []) fun c hc => by
        have := hgoal deals hp c hc
        cases c <;> first | exact this.elim | exact this
    · rw [e1]; exact fun i hi s hs => (hins deals hp i hi).2 s hs
    · rw [e1]; exact fun i hi => (hins deals hp i hi).1
  rcases C117_history H verify pub flag _ hsz honly bs L L' hacc key sats hk with h | ⟨b, hb, tx, j, inp, h1, h2, h3, h4⟩
  · exact .inl h
  rcases h4 with ⟨q, hq, ha⟩ | h4
  · right; left
    obtain ⟨deals, hp, hqp⟩ := List.mem_flatMap.mp hq
    obtain ⟨e1, e2⟩ := hbuilt deals hp q hqp
    obtain ⟨i, i', a1, a2, a3, -⟩ := ha.input
    rw [h2] at a1; injection a1 with a1; subst a1
    have hk1 := congrArg (fun l => (l.map outpoint)[q.2]?) e1
    simp only [coinCalls_ins, List.getElem?_map, a2, Option.map_some] at hk1
    have hd : ∃ d, deals[q.2]? = some d := by
      cases hx : deals[q.2]? with
      | none => rw [hx] at hk1; cases hk1
      | some d => exact ⟨d, rfl⟩
    obtain ⟨d, hd⟩ := hd
    rw [hd] at hk1
    injection hk1 with hk1
    have hdm := List.mem_of_getElem? hd
    obtain ⟨o, ho⟩ := goal_outs ((hgiven deals hp).1 d hdm).2.2.2
    have hk2 := congrArg (fun l => l[q.2]?) (goals_outs _ (hgoal deals hp))
    simp only [List.getElem?_map, hd, Option.map_some, ho, ← e2, ← ha.single hf] at hk2
    have hk3 : tx.Outputs[j]? = some o := by
      cases hx : tx.Outputs[j]? with
      | none => rw [hx] at hk2; cases hk2
      | some o' => rw [hx] at hk2; simp at hk2; rw [hk2]
    exact ⟨b, hb, tx, h1, deals, hp, d, hdm, by rw [← h3, a3, hk1], j, inp, o, h2, h3, ho, hk3⟩
  · exact .inr (.inr ⟨b, hb, tx, j, h1, h4⟩)

/-! ## The hypotheses are met: a coin of 90 satoshis offered for 150, and a buyer with a coin of 70 -/

/-- The seller: a key that signs with SINGLE and ANYONECANPAY. -/
def exSeller : InternalSigner := { toySigner with SigHashFlag := 0xc3 }

/-- The coin and the payment asked for it. -/
def exDeals : List (WalletCoin × Call) := [(exCoin, .payTo (Address.NewFromPublicKeyHash toyH (List.replicate 20 7) true).AddressString 150)]

/-- What the buyer adds: a coin of 70, and an output for the change. -/
def exBuy : List Call := [.fromUtxo exCoin2.txid exCoin2.vout exCoin2.scriptHex exCoin2.sats, .payTo (Address.NewFromPublicKeyHash toyH (List.replicate 20 8) true).AddressString 8]

theorem exOffer_good : GoodSigner toyVerify2 exSeller ∧ (∀ s ∈ [toySigner2], GoodSigner toyVerify2 s) ∧
    (∀ d ∈ exDeals, CoinOf exLedger2 (toyH.ripemd160 (toyH.sha256 exSeller.pubKey)) d.1 ∧ GoalCall d.2) ∧ ∀ c ∈ exBuy, PaymentCall exLedger2 (keyHashes toyH [toySigner2]) c := by
  refine ⟨⟨toySigner_sized, by decide, fun d => ⟨d.take 9, rfl, by simp [toyVerify2, toyVerify, exSeller]⟩⟩, ?_, ?_, ?_⟩
  · intro s hs
    rw [List.mem_singleton.mp hs]
    refine ⟨⟨by decide, ?_⟩, by decide, fun d => ⟨d.take 5, rfl, by simp [toyVerify2]⟩⟩
    intro d s h
    have : d.take 5 = s := by simpa [toySigner2] using h
    rw [← this, List.length_take]; omega
  · intro d hd
    rw [List.mem_singleton.mp hd]
    exact ⟨⟨by unfold IsTxId; decide +kernel, (isHexString_iff _).mpr (isHex_encode _), hexDecodeIgnore_encode _, by simp [exLedger2, exCoin]; rfl⟩, show IsAddressLike _ by decide +kernel⟩
  · intro c hc
    simp only [exBuy, List.mem_cons, List.not_mem_nil, or_false] at hc
    rcases hc with rfl | rfl
    · obtain ⟨-, -, -, h⟩ := exPledges_good
      obtain ⟨a, b, c, d⟩ := h (exPledger2, [exCoin2]) (by simp [exPledges]) exCoin2 (by simp)
      exact ⟨a, _, by simp [keyHashes]; rfl, b, c, d⟩
    · exact show IsAddressLike _ by decide +kernel

/-- A node accepts what the buyer makes; without the buyer's coin the offer cannot be paid. -/
example : (∃ b b' L', offer toyH exSeller (offerCalls exDeals) = .ok b ∧ takeUp toyH [toySigner2] exBuy b = .ok b' ∧ NodeAccepts toyH toyVerify2 exLedger2 b' L') ∧ ¬ Payable (offerCalls exDeals) := by
  obtain ⟨g1, g2, g3, g4⟩ := exOffer_good
  constructor
  · obtain ⟨b, b', e1, e2, e3, -⟩ := C134_take toyH toyVerify2 exLedger2 exSeller g1 (by decide) exDeals g3 [toySigner2] g2 exBuy g4 (by decide) (by
      intro b hb
      have hall : (match offer toyH exSeller (offerCalls exDeals) with | .ok b => decide (b.length < 2 ^ 62) | _ => true) = true := by decide +kernel
      rw [hb] at hall
      exact of_decide_eq_true hall)
    have hf : (match offer toyH exSeller (offerCalls exDeals) with
        | .ok b => (match takeUp toyH [toySigner2] exBuy b with
          | .ok b => decide (b.length ≤ maxTxBytes ∧ toyH.sha256 (toyH.sha256 b) ≠ List.replicate 32 17 ∧ toyH.sha256 (toyH.sha256 b) ≠ List.replicate 32 34)
          | _ => false)
        | _ => false) = true := by decide +kernel
    rw [e1] at hf
    simp only [e2] at hf
    obtain ⟨f1, f2, f3⟩ := of_decide_eq_true hf
    have hp : Payable (offerCalls exDeals ++ exBuy) :=
      ⟨⟨_, List.mem_cons_self, by simp [Call.spent]⟩, ⟨_, List.mem_append_left _ (List.mem_append_right _ List.mem_cons_self), by simp [Call.outs]⟩, by decide +kernel, by decide, by decide⟩
    obtain ⟨L', hL'⟩ := e3.mpr ⟨hp, f1, fun n _ => by
      have k1 : exCoin.key = List.replicate 32 17 ++ leBytes 4 1 := by decide +kernel
      have k2 : exCoin2.key = List.replicate 32 34 ++ leBytes 4 0 := by decide +kernel
      have hl := toyH.sha256_length (toyH.sha256 b')
      unfold exLedger2
      rw [if_neg, if_neg]
      · rw [k2]; intro e; exact f3 (List.append_inj_left e (by simp [hl]))
      · rw [k1]; intro e; exact f2 (List.append_inj_left e (by simp [hl]))⟩
    exact ⟨b, b', L', e1, e2, hL'⟩
  · intro hpay
    have := hpay.funded
    revert this; decide

/-- The offer before it is signed. -/
def exUnsignedOffer : Transaction := match applyCalls Transaction.New (offerCalls exDeals) with | .ok (t, _) => t | _ => Transaction.New

/-- A check that accepts only what the seller has signed. -/
def exOfferVerify (pub d _s : Bytes) : Bool := pub == exSeller.pubKey && d ==
  toyH.sha256 (toyH.sha256 (preimage (fun b => toyH.sha256 (toyH.sha256 b)) exUnsignedOffer 0 (exUnsignedOffer.Inputs.getD 0 Input.New) (p2pkh (toyH.ripemd160 (toyH.sha256 toySigner.pubKey))) 0xc3))

/-- The hypotheses of C134_safe: a key that has signed one offer and nothing else. -/
example : OnlySigned toyH exOfferVerify exSeller.pubKey 0xc3 ([exDeals].flatMap fun deals => inputsOf (offerCalls deals)) ∧ isSingle 0xc3 = true ∧
    (∀ d ∈ exDeals, IsTxId d.1.txid ∧ IsHexString d.1.scriptHex ∧ d.1.scriptHex.length < 2 ^ 64 ∧ GoalCall d.2) ∧
    exLedger2 exCoin.key = some ⟨90, p2pkh (toyH.ripemd160 (toyH.sha256 exSeller.pubKey))⟩ := by
  refine ⟨?_, by decide, ?_, by simp [exLedger2]; rfl⟩
  · intro d s h
    simp only [exOfferVerify, Bool.and_eq_true, beq_iff_eq] at h
    refine ⟨(exUnsignedOffer, 0), ?_, exUnsignedOffer.Inputs.getD 0 Input.New, _, by decide +kernel, by decide +kernel, h.2⟩
    have hi : inputsOf (offerCalls exDeals) = [(exUnsignedOffer, 0)] := by
      have hl : (List.range exUnsignedOffer.Inputs.length) = [0] := by decide +kernel
      have hok : (applyCalls Transaction.New (offerCalls exDeals)).isOk = true := by decide +kernel
      unfold exUnsignedOffer at hl ⊢
      unfold inputsOf
      revert hl hok
      rcases applyCalls Transaction.New (offerCalls exDeals) with r | e | _ <;> simp [Res.isOk]
    simp [hi]
  · intro d hd
    rw [List.mem_singleton.mp hd]
    exact ⟨by unfold IsTxId; decide +kernel, (isHexString_iff _).mpr (isHex_encode _), by decide +kernel, show IsAddressLike _ by decide +kernel⟩

end Verif.Props
