import Verif.Props.Offer
/-!
# C135: with SINGLE, an input without an output at its position
-/
namespace Verif.Props
open Verif Spec Transaction

/-- Anyone, with the library: parses the bytes of a transaction, puts input `k` of it behind coins of their own into a new transaction, with other outputs, and signs for these coins. -/
def takeOver (H : HashFns) (signers : List InternalSigner) (own : List WalletCoin) (k : Nat) (outs : List Call) (b : Bytes) : Res Bytes := do
  let t ← NewFromBytes (Slice.exact b)
  match t.Inputs[k]? with
  | none => .err ""
  | some i =>
    let (tx, _) ← applyCalls Transaction.New (coinCalls own ++ (.addInput i :: outs))
    let tx ← signWithAll H signers tx
    pure tx.ToBytes

/-- C135 (a), what is bound: if the key has signed, with SINGLE, transactions with some coins and some outputs and nothing else, then through any history of transactions that a node accepts a coin of the key stays unspent, unless a
transaction takes it that has at the position of the coin the same output as the one signed, or like it none; or there is a collision of a hash function. -/
theorem C135_bound (H : HashFns) (verify : Bytes → Bytes → Bytes → Bool) (pub : Bytes) (flag : UInt8) (hf : isSingle flag = true) (given : List (List WalletCoin × List Call))
    (hgiven : ∀ g ∈ given, (∀ w ∈ g.1, IsTxId w.txid ∧ IsHexString w.scriptHex ∧ w.scriptHex.length < 2 ^ 64) ∧ (∀ c ∈ g.2, GoalCall c) ∧ g.1.length + g.2.length < 2 ^ 31)
    (honly : OnlySigned H verify pub flag (given.flatMap fun g => inputsOf (coinCalls g.1 ++ g.2)))
    (bs : List Bytes) (L L' : Ledger) (hacc : NodeAcceptsAll H verify L bs L') (key : Bytes) (sats : UInt64) (hk : L key = some ⟨sats, p2pkh (H.ripemd160 (H.sha256 pub))⟩) :
    L' key = L key ∨
    (∃ b ∈ bs, ∃ tx, IsTx MinCompactSize tx b ∧ ∃ g ∈ given, ∃ (k : Nat) (w : WalletCoin), g.1[k]? = some w ∧ w.key = key ∧
      ∃ (j : Nat) (inp : Input), tx.Inputs[j]? = some inp ∧ outpoint inp = key ∧ tx.Outputs[j]? = (g.2.flatMap Call.outs)[k]?) ∨
    (∃ b ∈ bs, ∃ tx j, IsTx MinCompactSize tx b ∧ (KeyCollision H pub tx j ∨
      ∃ q ∈ given.flatMap fun g => inputsOf (coinCalls g.1 ++ g.2), DigestCollision H flag q.1 q.2 tx j ⟨sats, p2pkh (H.ripemd160 (H.sha256 pub))⟩)) := by
  have hbuilt : ∀ g ∈ given, ∀ q ∈ inputsOf (coinCalls g.1 ++ g.2), q.1.Inputs = (coinCalls g.1).flatMap Call.ins ∧ q.1.Outputs = g.2.flatMap Call.outs := by
    intro g hp q hq
    obtain ⟨f1, -, f3⟩ := coinCalls_flat g.1 g.2 (hgiven g hp).2.1
    have := built (coinCalls g.1 ++ g.2) (fun c hc => by
      rcases List.mem_append.mp hc with hc | hc
      · obtain ⟨w, hw, rfl⟩ := List.mem_map.mp hc
        exact ((hgiven g hp).1 w hw).2.1
      · have := (hgiven g hp).2.1 c hc
        cases c <;> first | exact this.elim | exact this | trivial)
    rw [inputsOf, this] at hq
    obtain ⟨k, -, rfl⟩ := List.mem_map.mp hq
    exact ⟨f3, f1⟩
  have hins : ∀ g ∈ given, ∀ i ∈ (coinCalls g.1).flatMap Call.ins, IsTxId i.PreviousTxID ∧ (∀ s, i.PreviousTxScript = some s → s.length < 2 ^ 64) := by
    intro g hp i hi
    obtain ⟨c, hc, hic⟩ := List.mem_flatMap.mp hi
    obtain ⟨w, hw, rfl⟩ := List.mem_map.mp hc
    obtain ⟨b1, b2, b3⟩ := (hgiven g hp).1 w hw
    rw [List.mem_singleton.mp hic]
    refine ⟨b1, fun s' hs' => ?_⟩
    injection hs' with hs'
    rw [← hs']
    have := hexDecodeIgnore_length ((isHexString_iff _).mp b2)
    omega
  have hsz : ∀ q ∈ given.flatMap fun g => inputsOf (coinCalls g.1 ++ g.2), Sized q.1 ∧ ∀ i ∈ q.1.Inputs, IsTxId i.PreviousTxID := by
    intro q hq
    obtain ⟨g, hp, hq⟩ := List.mem_flatMap.mp hq
    obtain ⟨e1, e2⟩ := hbuilt g hp q hq
    have l1 := (ins_length (coinCalls g.1)).1
    have l2 := (ins_length g.2).2
    have l3 : (coinCalls g.1).length = g.1.length := by simp [coinCalls]
    have := (hgiven g hp).2.2
    refine ⟨⟨by rw [e1]; omega, by rw [e2]; omega, ?_, ?_⟩, ?_⟩
    · rw [e2]
      exact payment_outputs (L := L) (hashes := []) fun c hc => by
        have := (hgiven g hp).2.1 c hc
        cases c <;> first | exact this.elim | exact this
    · rw [e1]; exact fun i hi s hs => (hins g hp i hi).2 s hs
    · rw [e1]; exact fun i hi => (hins g hp i hi).1
  rcases C117_history H verify pub flag _ hsz honly bs L L' hacc key sats hk with h | ⟨b, hb, tx, j, inp, h1, h2, h3, h4⟩
  · exact .inl h
  rcases h4 with ⟨q, hq, ha⟩ | h4
  · right; left
    obtain ⟨g, hp, hqp⟩ := List.mem_flatMap.mp hq
    obtain ⟨e1, e2⟩ := hbuilt g hp q hqp
    obtain ⟨i, i', a1, a2, a3, -⟩ := ha.input
    rw [h2] at a1; injection a1 with a1; subst a1
    have hk1 := congrArg (fun l => (l.map outpoint)[q.2]?) e1
    simp only [coinCalls_ins, List.getElem?_map, a2, Option.map_some] at hk1
    have hd : ∃ w, g.1[q.2]? = some w := by
      cases hx : g.1[q.2]? with
      | none => rw [hx] at hk1; cases hk1
      | some w => exact ⟨w, rfl⟩
    obtain ⟨w, hw⟩ := hd
    rw [hw] at hk1
    injection hk1 with hk1
    exact ⟨b, hb, tx, h1, g, hp, q.2, w, hw, by rw [← h3, a3, hk1], j, inp, h2, h3, by rw [ha.single hf, e2]⟩
  · exact .inr (.inr ⟨b, hb, tx, j, h1, h4⟩)

/-- C135 (b), what is not: `SignAuto` signs, with SINGLE and ANYONECANPAY, inputs that have no output at their position, without an error. Anyone who has as many coins as there are inputs before one of these can spend it: they put the
signed input behind their coins, with at most as many outputs, to whomever they like. A node accepts that exactly if it would accept a payment from all these coins. -/
theorem C135_taken (H : HashFns) (verify : Bytes → Bytes → Bytes → Bool) (L : Ledger) (is : InternalSigner) (hg : GoodSigner verify is)
    (hf : anyoneCanPay (flagOrDefault is.SigHashFlag) = true ∧ isSingle (flagOrDefault is.SigHashFlag) = true)
    (coins : List WalletCoin) (goal : List Call) (hgoal : ∀ c ∈ goal, GoalCall c) (hc : ∀ w ∈ coins, CoinOf L (H.ripemd160 (H.sha256 is.pubKey)) w) (hlen : coins.length + goal.length < 2 ^ 30)
    (hcap : ∀ b, offer H is (coinCalls coins ++ goal) = .ok b → b.length < 2 ^ 62)
    (k : Nat) (w : WalletCoin) (hw : coins[k]? = some w) (hk : goal.length ≤ k)
    (signers : List InternalSigner) (hgs : ∀ s ∈ signers, GoodSigner verify s) (own : List WalletCoin) (hown : ∀ v ∈ own, ∃ h ∈ keyHashes H signers, CoinOf L h v) (hol : own.length = k)
    (outs : List Call) (houts : ∀ c ∈ outs, GoalCall c) (hout : outs.length ≤ k) :
    ∃ b b', offer H is (coinCalls coins ++ goal) = .ok b ∧ takeOver H signers own k outs b = .ok b' ∧
      ((∃ L', NodeAccepts H verify L b' L') ↔ Payable (coinCalls (own ++ [w]) ++ outs) ∧ b'.length ≤ maxTxBytes ∧ ∀ n < 2 ^ 32, L (H.sha256 (H.sha256 b') ++ leBytes 4 n) = none) ∧
      ∀ L', NodeAccepts H verify L b' L' → ∃ tx, tx.Outputs = outs.flatMap Call.outs ∧ tx.Inputs.map outpoint = own.map WalletCoin.key ++ [w.key] ∧ L' = L.after (H.sha256 (H.sha256 b')) tx := by
  obtain ⟨b, e1, e2⟩ := offer_good H verify L is hg hf coins goal hgoal hc (by omega)
  obtain ⟨t, e3, e4, e5, e6, e7, e8⟩ := e2 (hcap b e1)
  have hik := congrArg (fun l => l[k]?) e7
  simp only [List.getElem?_map, hw, Option.map_some] at hik
  obtain ⟨i, hi, hio⟩ : ∃ i, t.Inputs[k]? = some i ∧ outpoint i = w.key := by
    cases hx : t.Inputs[k]? with
    | none => rw [hx] at hik; cases hik
    | some i => rw [hx] at hik; injection hik with hik; exact ⟨i, rfl, hik⟩
  obtain ⟨i1, i2⟩ := e8 k i hi
  have hwc := hc w (List.mem_of_getElem? hw)
  have hkc : k < coins.length := (List.getElem?_eq_some_iff.mp hw).1
  obtain ⟨all, hall⟩ : ∃ all, all = coinCalls (own ++ [w]) ++ outs := ⟨_, rfl⟩
  have hpc : ∀ c ∈ all, PaymentCall L (H.ripemd160 (H.sha256 is.pubKey) :: keyHashes H signers) c := by
    rw [hall]
    refine coin_payment houts fun v hv => ?_
    rcases List.mem_append.mp hv with hv | hv
    · obtain ⟨h, hh, hco⟩ := hown v hv
      exact ⟨h, List.mem_cons_of_mem _ hh, hco⟩
    · rw [List.mem_singleton.mp hv]
      exact ⟨_, List.mem_cons_self, hwc⟩
  obtain ⟨f1, f2, -⟩ := coinCalls_flat (own ++ [w]) outs houts
  have hoi : outs.flatMap Call.ins = [] := by
    rw [List.flatMap_eq_nil_iff]
    intro c hc; have := houts c hc
    cases c <;> first | exact this.elim | rfl
  have hco : (coinCalls own).flatMap Call.outs = [] := by
    rw [List.flatMap_eq_nil_iff]
    intro c hc
    obtain ⟨w, -, rfl⟩ := List.mem_map.mp hc
    rfl
  obtain ⟨t2, ht2⟩ : ∃ t2 : Transaction, t2 = { Transaction.New with Inputs := (coinCalls own).flatMap Call.ins ++ [i], Outputs := outs.flatMap Call.outs } := ⟨_, rfl⟩
  have hownp : ∀ c ∈ coinCalls own, PaymentCall L (keyHashes H signers) c := by
    have := coin_payment (goal := []) (by simp) hown
    simpa using this
  have hb : applyCalls Transaction.New (coinCalls own ++ (.addInput i :: outs)) = .ok (t2, List.replicate (coinCalls own ++ (Call.addInput i :: outs)).length true) := by
    rw [built _ (by
      intro c hm
      rcases List.mem_append.mp hm with hm | hm
      · exact payment_wellFormed hownp c hm
      · rcases List.mem_cons.mp hm with rfl | hm
        · trivial
        · have := houts c hm
          cases c <;> first | exact this.elim | exact this | trivial), ht2]
    simp only [List.flatMap_append, List.flatMap_cons, hoi, hco, Call.ins, Call.outs, List.append_nil, List.nil_append]
  have hi2 : t2.Inputs = (coinCalls own).flatMap Call.ins ++ [i] := by rw [ht2]
  have ho2 : t2.Outputs = all.flatMap Call.outs := by rw [ht2, hall, f1]
  have hpi := payment_inputs hownp
  have hil : ((coinCalls own).flatMap Call.ins).length = k := by
    have := congrArg List.length (coinCalls_ins own)
    simpa [hol] using this
  have hout1 : (outs.flatMap Call.outs).length = outs.length := by
    have := congrArg List.length (goals_outs _ houts)
    simpa using this
  have hout2 : (goal.flatMap Call.outs).length = goal.length := by
    have := congrArg List.length (goals_outs _ hgoal)
    simpa using this
  have hol2 : t2.Outputs.length = outs.length := by rw [ht2]; exact hout1
  obtain ⟨tx', s1, s2, ht', hacc⟩ := mixed_accepted H verify L signers hgs t2 (goal.flatMap Call.outs) (by rw [ht2]) (by rw [ht2])
    (by rw [hi2, List.length_append, hil]; simp only [List.length_singleton]; omega) (by omega) (by rw [ho2]; exact payment_outputs hpc) (by
      intro m j hj
      rw [hi2] at hj
      by_cases hm : m < k
      · rw [List.getElem?_append_left (by omega)] at hj
        obtain ⟨a, b, -⟩ := hpi j (List.mem_of_getElem? hj)
        exact .inr ⟨a, b⟩
      · rw [List.getElem?_append_right (by omega), hil] at hj
        have : m - k = 0 := by
          by_contra hne
          rw [List.getElem?_eq_none (by simp only [List.length_singleton]; omega)] at hj
          cases hj
        rw [this] at hj
        simp only [List.getElem?_cons_zero, Option.some.injEq] at hj
        subst hj
        have : m = k := by omega
        subst this
        refine .inl ⟨i1, i2, ?_⟩
        rw [List.getElem?_eq_none (by omega), List.getElem?_eq_none (by omega)])
  have hto : tx'.Outputs = all.flatMap Call.outs := by rw [← s2.2.2.1, ho2]
  have hti : tx'.Inputs.map outpoint = all.flatMap Call.spent := by
    rw [outpoints_same s2, hi2, List.map_append, coinCalls_ins, hall, f2, List.map_append]
    simp only [List.map_cons, List.map_nil, hio]
  obtain ⟨m1, m2⟩ := mixed_node H verify L tx' ht' (by rw [← s2.2.1, ht2]; rfl) hacc _ all hpc hto hti
  rw [hall] at m1
  refine ⟨b, tx'.ToBytes, e1, ?_, m1, fun L' h => ?_⟩
  · unfold takeOver
    rw [e3, Res.ok_bind, hi]
    simp only [hb, Res.ok_bind, s1]
    rfl
  · obtain ⟨tx, q1, q2, q3⟩ := m2 L' h
    refine ⟨tx, by rw [q1, hall, f1], ?_, q3⟩
    rw [q2, hall, f2, List.map_append]; rfl

/-! ## The hypotheses are met: coins of 90 and 50 satoshis and a payment of 130 to the seller; the second coin is taken by someone with a coin of 70 -/

/-- The second coin of the seller. -/
def exCoin3 : WalletCoin := ⟨List.replicate 64 51, 0, hexEncode (p2pkh (toyH.ripemd160 (toyH.sha256 exSeller.pubKey))), 50⟩

/-- The node knows the three coins. -/
def exLedger3 : Ledger := fun k => if k = exCoin3.key then some ⟨50, p2pkh (toyH.ripemd160 (toyH.sha256 exSeller.pubKey))⟩ else exLedger2 k

/-- 130 to the seller. -/
def exAsk : List Call := [.payTo (Address.NewFromPublicKeyHash toyH (toyH.ripemd160 (toyH.sha256 exSeller.pubKey)) true).AddressString 130]

/-- 120 to somebody else. -/
def exGrab : List Call := [.payTo (Address.NewFromPublicKeyHash toyH (List.replicate 20 9) true).AddressString 120]

theorem exUnpaired_good : (∀ c ∈ exAsk, GoalCall c) ∧ (∀ c ∈ exGrab, GoalCall c) ∧ (∀ w ∈ [exCoin, exCoin3], CoinOf exLedger3 (toyH.ripemd160 (toyH.sha256 exSeller.pubKey)) w) ∧
    (∀ v ∈ [exCoin2], ∃ h ∈ keyHashes toyH [toySigner2], CoinOf exLedger3 h v) := by
  have k12 : exCoin.key ≠ exCoin3.key := by decide +kernel
  have k23 : exCoin2.key ≠ exCoin3.key := by decide +kernel
  obtain ⟨-, -, h1, -⟩ := exOffer_good
  obtain ⟨-, -, -, h2⟩ := exPledges_good
  refine ⟨?_, ?_, ?_, ?_⟩
  · intro c hc
    rw [List.mem_singleton.mp hc]
    exact show IsAddressLike _ by decide +kernel
  · intro c hc
    rw [List.mem_singleton.mp hc]
    exact show IsAddressLike _ by decide +kernel
  · intro w hw
    simp only [List.mem_cons, List.not_mem_nil, or_false] at hw
    rcases hw with rfl | rfl
    · obtain ⟨⟨a, b, c, d⟩, -⟩ := h1 _ List.mem_cons_self
      exact ⟨a, b, c, by unfold exLedger3; rw [if_neg k12]; exact d⟩
    · exact ⟨by unfold IsTxId; decide +kernel, (isHexString_iff _).mpr (isHex_encode _), hexDecodeIgnore_encode _, by unfold exLedger3; rw [if_pos rfl]; rfl⟩
  · intro v hv
    rw [List.mem_singleton.mp hv]
    obtain ⟨a, b, c, d⟩ := h2 (exPledger2, [exCoin2]) (by simp [exPledges]) exCoin2 (by simp)
    exact ⟨_, by simp [keyHashes]; rfl, a, b, c, by unfold exLedger3; rw [if_neg k23]; exact d⟩

/-- The seller asked for 130 satoshis for two coins of 140; somebody spends one of them and the seller gets nothing. -/
example : ∃ b b' L', offer toyH exSeller (coinCalls [exCoin, exCoin3] ++ exAsk) = .ok b ∧ takeOver toyH [toySigner2] [exCoin2] 1 exGrab b = .ok b' ∧ NodeAccepts toyH toyVerify2 exLedger3 b' L' := by
  obtain ⟨g1, g2, -⟩ := exOffer_good
  obtain ⟨u1, u2, u3, u4⟩ := exUnpaired_good
  obtain ⟨b, b', e1, e2, e3, -⟩ := C135_taken toyH toyVerify2 exLedger3 exSeller g1 (by decide) [exCoin, exCoin3] exAsk u1 u3 (by decide) (by
    intro b hb
    have hall : (match offer toyH exSeller (coinCalls [exCoin, exCoin3] ++ exAsk) with | .ok b => decide (b.length < 2 ^ 62) | _ => true) = true := by decide +kernel
    rw [hb] at hall
    exact of_decide_eq_true hall) 1 exCoin3 rfl (by decide) [toySigner2] g2 [exCoin2] u4 rfl exGrab u2 (by decide)
  have hf : (match offer toyH exSeller (coinCalls [exCoin, exCoin3] ++ exAsk) with
      | .ok b => (match takeOver toyH [toySigner2] [exCoin2] 1 exGrab b with
        | .ok b => decide (b.length ≤ maxTxBytes ∧ toyH.sha256 (toyH.sha256 b) ≠ List.replicate 32 17 ∧ toyH.sha256 (toyH.sha256 b) ≠ List.replicate 32 34 ∧ toyH.sha256 (toyH.sha256 b) ≠ List.replicate 32 51)
        | _ => false)
      | _ => false) = true := by decide +kernel
  rw [e1] at hf
  simp only [e2] at hf
  obtain ⟨f1, f2, f3, f4⟩ := of_decide_eq_true hf
  have hp : Payable (coinCalls ([exCoin2] ++ [exCoin3]) ++ exGrab) :=
    ⟨⟨_, List.mem_cons_self, by simp [Call.spent]⟩, ⟨_, List.mem_append_right _ List.mem_cons_self, by simp [Call.outs]⟩, by decide +kernel, by decide, by decide⟩
  obtain ⟨L', hL'⟩ := e3.mpr ⟨hp, f1, fun n _ => by
    have k1 : exCoin.key = List.replicate 32 17 ++ leBytes 4 1 := by decide +kernel
    have k2 : exCoin2.key = List.replicate 32 34 ++ leBytes 4 0 := by decide +kernel
    have k3 : exCoin3.key = List.replicate 32 51 ++ leBytes 4 0 := by decide +kernel
    have hl := toyH.sha256_length (toyH.sha256 b')
    unfold exLedger3 exLedger2
    rw [if_neg, if_neg, if_neg]
    · rw [k2]; intro e; exact f3 (List.append_inj_left e (by simp [hl]))
    · rw [k1]; intro e; exact f2 (List.append_inj_left e (by simp [hl]))
    · rw [k3]; intro e; exact f4 (List.append_inj_left e (by simp [hl]))⟩
  exact ⟨b, b', L', e1, e2, hL'⟩

/-- The hypotheses of C135_bound, for the offer of C134. -/
example : OnlySigned toyH exOfferVerify exSeller.pubKey 0xc3 ([(exDeals.map (·.1), exDeals.map (·.2))].flatMap fun g => inputsOf (coinCalls g.1 ++ g.2)) ∧ isSingle 0xc3 = true ∧
    ∀ g ∈ [(exDeals.map (·.1), exDeals.map (·.2))], (∀ w ∈ g.1, IsTxId w.txid ∧ IsHexString w.scriptHex ∧ w.scriptHex.length < 2 ^ 64) ∧ (∀ c ∈ g.2, GoalCall c) ∧ g.1.length + g.2.length < 2 ^ 31 := by
  refine ⟨?_, by decide, ?_⟩
  · intro d s h
    simp only [exOfferVerify, Bool.and_eq_true, beq_iff_eq] at h
    refine ⟨(exUnsignedOffer, 0), ?_, exUnsignedOffer.Inputs.getD 0 Input.New, _, by decide +kernel, by decide +kernel, h.2⟩
    have hi : inputsOf (offerCalls exDeals) = [(exUnsignedOffer, 0)] := by
      have hl : (List.range exUnsignedOffer.Inputs.length) = [0] := by decide +kernel
      have hok : (applyCalls Transaction.New (offerCalls exDeals)).isOk = true := by decide +kernel
      unfold exUnsignedOffer at hl ⊢
      unfold inputsOf
      revert hl hok
      rcases applyCalls Transaction.New (offerCalls exDeals) with r | e | _ <;> simp [Res.isOk]
    simp only [List.flatMap_cons, List.flatMap_nil, List.append_nil]
    exact hi ▸ List.mem_singleton.mpr rfl
  · intro g hg
    rw [List.mem_singleton.mp hg]
    refine ⟨?_, ?_, by decide⟩
    · intro w hw
      rw [List.mem_singleton.mp hw]
      exact ⟨by unfold IsTxId; decide +kernel, (isHexString_iff _).mpr (isHex_encode _), by decide +kernel⟩
    · intro c hc
      rw [List.mem_singleton.mp hc]
      exact show IsAddressLike _ by decide +kernel

end Verif.Props
