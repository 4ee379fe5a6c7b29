import Verif.Spec.Pledge
import Verif.Props.Ledger
import Verif.Props.Authorise
import Verif.Props.Joint
import Verif.Props.TxLayout
/-!
# C132: many contribute to one payment, all or nothing
-/
namespace Verif.Props
open Verif Spec Transaction

/-- A contributor, with the library: the coins as inputs, the goal as outputs, signed. -/
def pledge (H : HashFns) (goal : List Call) (is : InternalSigner) (coins : List WalletCoin) : Res Bytes := do
  let (tx, _) ← applyCalls Transaction.New (coinCalls coins ++ goal)
  let tx ← is.SignAuto H tx
  pure tx.ToBytes

/-- The organiser, with the library: the inputs of all contributions (`AddInput`), and the goal as outputs. -/
def collect (goal : List Call) (bs : List Bytes) : Res Bytes := do
  let txs ← bs.mapM fun b => NewFromBytes (Slice.exact b)
  let (tx, _) ← applyCalls Transaction.New ((txs.flatMap (·.Inputs)).map .addInput ++ goal)
  pure tx.ToBytes

/-- With ANYONECANPAY the digest of an input does not depend on the other inputs. -/
theorem preimage_acp (d : Bytes → Bytes) {tx t : Transaction} {k j : Nat} {inp inp' : Input} {code : Bytes} {flag : UInt8} (hf : anyoneCanPay flag = true) (h1 : t.Version = tx.Version) (h2 : t.Locktime = tx.Locktime)
    (h3 : outpoint inp' = outpoint inp) (h4 : inp'.PreviousTxSatoshis = inp.PreviousTxSatoshis) (h5 : inp'.SequenceNumber = inp.SequenceNumber) (h6 : outputsString t j flag = outputsString tx k flag) :
    preimage d t j inp' code flag = preimage d tx k inp code flag := by
  unfold preimage
  rw [hf, h1, h2, h3, h4, h5, h6]
  simp

/-- When a node accepts the bytes of a transaction whose inputs the scripts accept. -/
theorem node_accepts_iff (H : HashFns) (verify : Bytes → Bytes → Bytes → Bool) (L : Ledger) (tx : Transaction) (ht : ∀ i ∈ tx.Inputs, IsTxId i.PreviousTxID) (hlock : tx.Locktime = 0)
    (hacc : ∀ k inp, tx.Inputs[k]? = some inp → ∃ c, L (outpoint inp) = some c ∧ Accepted H verify tx k c.script c.sats) :
    ((∃ L', NodeAccepts H verify L tx.ToBytes L') ↔ (tx.Inputs ≠ [] ∧ tx.Outputs ≠ [] ∧ (tx.Inputs.map outpoint).Nodup ∧ valueIn L tx ≤ maxMoney ∧ valueOut tx ≤ valueIn L tx) ∧
      tx.ToBytes.length ≤ maxTxBytes ∧ ∀ n < 2 ^ 32, L (H.sha256 (H.sha256 tx.ToBytes) ++ leBytes 4 n) = none) ∧
    ∀ L', NodeAccepts H verify L tx.ToBytes L' → L' = L.after (H.sha256 (H.sha256 tx.ToBytes)) tx := by
  have hwo := wire_outpoints tx ht
  have hmx : maxTxBytes < 2 ^ 62 := by decide
  have hvi : valueIn L (wireTx tx) = valueIn L tx := by rw [valueIn_eq, valueIn_eq, hwo]
  have hvo : valueOut (wireTx tx) = valueOut tx := rfl
  have hne : (wireTx tx).Inputs ≠ [] ↔ tx.Inputs ≠ [] := by simp [wireTx]
  have hwire : ∀ t, tx.ToBytes.length ≤ maxTxBytes → IsTx MinCompactSize t tx.ToBytes → t = wireTx tx := by
    intro t hl h
    have e1 := (C35_accepts_iff tx.ToBytes [] (by simp; omega) t).mpr (isTx_mono h)
    have e2 := C33_parse_serialise tx ht [] (by simp; omega)
    rw [e1] at e2
    injection e2
  refine ⟨⟨?_, ?_⟩, ?_⟩
  · rintro ⟨L', h1, h2, t, h3, h4, -⟩
    have := hwire t h1 h3
    subst this
    refine ⟨⟨hne.mp h4.inputs, h4.outputs, ?_, ?_, ?_⟩, h1, h2⟩
    · rw [← hwo]; exact h4.distinct
    · rw [← hvi]; exact h4.range.1
    · rw [← hvi, ← hvo]; exact h4.funded
  · rintro ⟨⟨p1, p2, p3, p4, p5⟩, hlenb, hfresh⟩
    refine ⟨_, hlenb, hfresh, wireTx tx, tx_toBytes_isTx tx ht (by omega), ⟨hne.mpr p1, p2, by rw [hwo]; exact p3, ?_, ?_, ?_, .inl hlock⟩, rfl⟩
    · intro k inp hk
      simp only [wireTx, List.getElem?_map, Option.map_eq_some_iff] at hk
      obtain ⟨i', hk', rfl⟩ := hk
      obtain ⟨c, c1, c2⟩ := hacc k i' hk'
      exact ⟨c, by rw [wireInput_outpoint i' (ht i' (List.mem_of_getElem? hk'))]; exact c1, accepted_wire H verify tx ht k _ _ c2⟩
    · rw [hvi, hvo]; exact ⟨p4, by omega⟩
    · rw [hvi, hvo]; exact p5
  · rintro L' ⟨h1, -, t, h3, -, rfl⟩
    have := hwire t h1 h3
    subst this
    exact after_congr L _ rfl hwo

/-- An input with a signature that is good in every transaction with the outputs `outs`, for a coin of `L`. -/
def SignedFor (H : HashFns) (verify : Bytes → Bytes → Bytes → Bool) (L : Ledger) (outs : List Output) (i : Input) : Prop :=
  IsTxId i.PreviousTxID ∧ ∃ pub sig flag sats, L (outpoint i) = some ⟨sats, p2pkh (H.ripemd160 (H.sha256 pub))⟩ ∧ i.UnlockingScript = some (unlocking sig flag pub) ∧ sig.length + 1 < 2 ^ 32 ∧ pub.length < 2 ^ 32 ∧ pub ≠ [] ∧
    DefinedFlag flag = true ∧ anyoneCanPay flag = true ∧ isNone flag = false ∧ isSingle flag = false ∧
    verify pub (H.sha256 (H.sha256 (preimage (fun b => H.sha256 (H.sha256 b)) { Transaction.New with Outputs := outs } 0 { i with PreviousTxSatoshis := sats } (p2pkh (H.ripemd160 (H.sha256 pub))) flag))) sig = true

theorem outputsString_all {tx t : Transaction} {k j : Nat} {flag : UInt8} (h1 : isNone flag = false) (h2 : isSingle flag = false) (h : t.Outputs = tx.Outputs) : outputsString t j flag = outputsString tx k flag := by
  unfold outputsString; rw [h1, h2, h]; rfl

theorem signedFor_accepted {H : HashFns} {verify : Bytes → Bytes → Bytes → Bool} {L : Ledger} {tx : Transaction} (hv : tx.Version = Transaction.New.Version) (hl : tx.Locktime = Transaction.New.Locktime) {k : Nat} {i : Input}
    (hi : tx.Inputs[k]? = some i) (h : SignedFor H verify L tx.Outputs i) : ∃ c, L (outpoint i) = some c ∧ Accepted H verify tx k c.script c.sats := by
  obtain ⟨-, pub, sig, flag, sats, h1, h2, h3, h4, h5, h6, h7, h8, h9, h10⟩ := h
  refine ⟨_, h1, accepted_of_unlocking H verify tx k i sig pub flag sats hi h2 h3 h4 h5 h6 ?_⟩
  rw [← h10]
  congr 3
  exact preimage_acp _ h7 hv hl rfl rfl rfl (outputsString_all h8 h9 rfl)

theorem coin_payment {L : Ledger} {hashes : List Bytes} {coins : List WalletCoin} {goal : List Call} (hgoal : ∀ c ∈ goal, GoalCall c) (hc : ∀ w ∈ coins, ∃ h ∈ hashes, CoinOf L h w) :
    ∀ c ∈ coinCalls coins ++ goal, PaymentCall L hashes c := by
  intro c hm
  rcases List.mem_append.mp hm with hm | hm
  · obtain ⟨w, hw, rfl⟩ := List.mem_map.mp hm
    obtain ⟨h, hh, c1, c2, c3, c4⟩ := hc w hw
    exact ⟨c1, h, hh, c2, c3, c4⟩
  · have := hgoal c hm
    cases c <;> first | exact this.elim | exact this

theorem coinCalls_flat (coins : List WalletCoin) (goal : List Call) (hgoal : ∀ c ∈ goal, GoalCall c) :
    (coinCalls coins ++ goal).flatMap Call.outs = goal.flatMap Call.outs ∧ (coinCalls coins ++ goal).flatMap Call.spent = coins.map WalletCoin.key ∧
    (coinCalls coins ++ goal).flatMap Call.ins = (coinCalls coins).flatMap Call.ins := by
  have h1 : goal.flatMap Call.spent = [] := by
    rw [List.flatMap_eq_nil_iff]
    intro c hc; have := hgoal c hc
    cases c <;> first | exact this.elim | rfl
  have h2 : goal.flatMap Call.ins = [] := by
    rw [List.flatMap_eq_nil_iff]
    intro c hc; have := hgoal c hc
    cases c <;> first | exact this.elim | rfl
  have h3 : (coinCalls coins).flatMap Call.outs = [] := by
    rw [List.flatMap_eq_nil_iff]
    intro c hc
    obtain ⟨w, -, rfl⟩ := List.mem_map.mp hc
    rfl
  have h4 : (coinCalls coins).flatMap Call.spent = coins.map WalletCoin.key := by
    clear h1 h2 h3
    unfold coinCalls
    induction coins with
    | nil => rfl
    | cons w ws ih => simp [Call.spent, WalletCoin.key] at ih ⊢; exact ih
  simp only [List.flatMap_append, h1, h2, h3, h4, List.append_nil, List.nil_append, and_self]

/-- One contribution: it is made without failing, and its inputs, as the organiser reads them, carry signatures that are good for the goal. -/
theorem pledge_good (H : HashFns) (verify : Bytes → Bytes → Bytes → Bool) (L : Ledger) (goal : List Call) (hgoal : ∀ c ∈ goal, GoalCall c) (is : InternalSigner) (hg : GoodSigner verify is)
    (hf : anyoneCanPay (flagOrDefault is.SigHashFlag) = true ∧ isNone (flagOrDefault is.SigHashFlag) = false ∧ isSingle (flagOrDefault is.SigHashFlag) = false)
    (coins : List WalletCoin) (hc : ∀ w ∈ coins, CoinOf L (H.ripemd160 (H.sha256 is.pubKey)) w) (hlen : coins.length + goal.length < 2 ^ 31) :
    ∃ b, pledge H goal is coins = .ok b ∧ (b.length < 2 ^ 62 → ∃ t, NewFromBytes (Slice.exact b) = .ok t ∧ t.Inputs.map outpoint = coins.map WalletCoin.key ∧
      ∀ i ∈ t.Inputs, SignedFor H verify L (goal.flatMap Call.outs) i) := by
  obtain ⟨f1, f2, f3⟩ := coinCalls_flat coins goal hgoal
  have hpc := coin_payment (hashes := [H.ripemd160 (H.sha256 is.pubKey)]) hgoal fun w hw => ⟨_, List.mem_singleton.mpr rfl, hc w hw⟩
  have hb := built _ (payment_wellFormed hpc)
  obtain ⟨tx, htx⟩ : ∃ tx : Transaction, tx = { Transaction.New with Inputs := (coinCalls coins ++ goal).flatMap Call.ins, Outputs := (coinCalls coins ++ goal).flatMap Call.outs } := ⟨_, rfl⟩
  rw [← htx] at hb
  have hi1 : tx.Inputs = (coinCalls coins ++ goal).flatMap Call.ins := by rw [htx]
  have ho1 : tx.Outputs = (coinCalls coins ++ goal).flatMap Call.outs := by rw [htx]
  obtain ⟨l1, l2⟩ := ins_length (coinCalls coins ++ goal)
  have hll : (coinCalls coins ++ goal).length = coins.length + goal.length := by simp [coinCalls]
  have hpi := payment_inputs hpc
  rw [← hi1] at hpi
  have h20 := H.ripemd160_length (H.sha256 is.pubKey)
  have hpi' : ∀ i ∈ tx.Inputs, IsTxId i.PreviousTxID ∧ i.PreviousTxScript = some (p2pkh (H.ripemd160 (H.sha256 is.pubKey))) ∧ L (outpoint i) = some ⟨i.PreviousTxSatoshis, p2pkh (H.ripemd160 (H.sha256 is.pubKey))⟩ := by
    intro i hi
    obtain ⟨a, ⟨h, hm, b, c⟩, -⟩ := hpi i hi
    rw [List.mem_singleton.mp hm] at b c
    exact ⟨a, b, c⟩
  have hs : Sized tx := by
    refine ⟨by rw [hi1]; omega, by rw [ho1]; omega, by rw [ho1]; exact payment_outputs hpc, ?_⟩
    intro i hi s hsome
    rw [(hpi' i hi).2.1] at hsome
    injection hsome with hsome
    rw [← hsome]; simp [p2pkh, h20]
  have hrd : ReadableScripts tx := fun i hi hpan => by
    rw [(hpi' i hi).2.1, p2pkh, C14_getPublicKeyHash _ h20] at hpan
    cases hpan
  obtain ⟨tx', s1, s2, s3⟩ := signAuto_good H verify is hg tx hs hrd
  have ht' := txids_same s2 fun i hi => (hpi' i hi).1
  refine ⟨tx'.ToBytes, ?_, fun hcap => ⟨wireTx tx', C33_parse_serialise tx' ht' [] (by simpa using hcap), ?_, ?_⟩⟩
  · unfold pledge
    rw [hb, Res.ok_bind]
    simp only [s1, Res.ok_bind]
    rfl
  · rw [wire_outpoints tx' ht', outpoints_same s2, hi1, payment_outpoints L _ _ hpc, f2]
  · intro i' hi'
    obtain ⟨i, him, rfl⟩ := List.mem_map.mp hi'
    obtain ⟨k, hk⟩ := List.mem_iff_getElem?.mp him
    have hlt : k < tx.Inputs.length := by
      have e1 := (List.getElem?_eq_some_iff.mp hk).1
      have := congrArg List.length s2.2.2.2
      simp only [List.length_map] at this
      omega
    obtain ⟨inp, hki⟩ : ∃ inp, tx.Inputs[k]? = some inp := ⟨_, List.getElem?_eq_getElem hlt⟩
    obtain ⟨a, b, c⟩ := hpi' inp (List.mem_of_getElem? hki)
    have hne : inp.PreviousTxID ≠ [] := by intro e; have := a.1; rw [e] at this; simp at this
    obtain ⟨-, s, q1, q2⟩ := selected_p2pkh _ h20 inp hne b
    rw [b] at q1; injection q1 with q1; subst q1
    obtain ⟨sig, g1, g2, g3⟩ := (s3 k inp hki).2 _ hne b q2
    rw [hk] at g1; injection g1 with g1
    have hid := ht' i him
    have hop : outpoint (wireInput i) = outpoint inp := by
      rw [wireInput_outpoint i hid, g1]; rfl
    obtain ⟨hz, ⟨hp, hd⟩, -⟩ := hg
    refine ⟨(isTxId_lower _).mpr hid, is.pubKey, sig, flagOrDefault is.SigHashFlag, inp.PreviousTxSatoshis, by rw [hop]; exact c, ?_, g2, hz.1, hp, hd, hf.1, hf.2.1, hf.2.2, ?_⟩
    · rw [g1]; rfl
    · rw [← g3]
      congr 3
      refine preimage_acp _ hf.1 (by rw [htx]) (by rw [htx]) hop rfl ?_ (outputsString_all hf.2.1 hf.2.2 ?_)
      · rw [g1]; rfl
      · show goal.flatMap Call.outs = tx.Outputs
        rw [ho1, f1]

theorem mapM_rel {α β : Type} {f : α → Res β} {P : α → β → Prop} : ∀ (l : List α), (∀ a ∈ l, ∃ b, f a = .ok b ∧ P a b) → ∃ bs, l.mapM f = .ok bs ∧ List.Forall₂ P l bs
  | [], _ => ⟨[], rfl, .nil⟩
  | a :: l, h => by
    obtain ⟨b, e, hp⟩ := h a (by simp)
    obtain ⟨bs, e', hf⟩ := mapM_rel l fun x hx => h x (by simp [hx])
    refine ⟨b :: bs, ?_, .cons hp hf⟩
    rw [List.mapM_cons, e, e']; rfl

/-- C132 (a): contributors with keys that sign with ALL and ANYONECANPAY each send some of their coins, as a transaction of their own that pays the goal; the organiser puts the inputs of any of these together, in any order. Nothing
fails, and a node accepts the bytes exactly if the coins are worth the goal, and none is given twice (and there is something to spend and to pay, the bytes are not too many and no other transaction has the same hash). Then the goal is
paid, and exactly these coins are spent. -/
theorem C132_collect (H : HashFns) (verify : Bytes → Bytes → Bytes → Bool) (L : Ledger) (goal : List Call) (hgoal : ∀ c ∈ goal, GoalCall c) (pledges : List (InternalSigner × List WalletCoin))
    (hg : ∀ p ∈ pledges, GoodSigner verify p.1)
    (hf : ∀ p ∈ pledges, anyoneCanPay (flagOrDefault p.1.SigHashFlag) = true ∧ isNone (flagOrDefault p.1.SigHashFlag) = false ∧ isSingle (flagOrDefault p.1.SigHashFlag) = false)
    (hc : ∀ p ∈ pledges, ∀ w ∈ p.2, CoinOf L (H.ripemd160 (H.sha256 p.1.pubKey)) w) (hlen : (pledges.flatMap (·.2)).length + goal.length < 2 ^ 31)
    (hcap : ∀ p ∈ pledges, ∀ b, pledge H goal p.1 p.2 = .ok b → b.length < 2 ^ 62) :
    ∃ bs b, pledges.mapM (fun p => pledge H goal p.1 p.2) = .ok bs ∧ collect goal bs = .ok b ∧
      ((∃ L', NodeAccepts H verify L b L') ↔ Payable (coinCalls (pledges.flatMap (·.2)) ++ goal) ∧ b.length ≤ maxTxBytes ∧ ∀ n < 2 ^ 32, L (H.sha256 (H.sha256 b) ++ leBytes 4 n) = none) ∧
      ∀ L', NodeAccepts H verify L b L' → ∃ tx, tx.Outputs = goal.flatMap Call.outs ∧ tx.Inputs.map outpoint = (pledges.flatMap (·.2)).map WalletCoin.key ∧ L' = L.after (H.sha256 (H.sha256 b)) tx := by
  obtain ⟨bs, e1, hfa⟩ := mapM_rel (f := fun p : InternalSigner × List WalletCoin => pledge H goal p.1 p.2)
    (P := fun p b => ∃ t, NewFromBytes (Slice.exact b) = .ok t ∧ t.Inputs.map outpoint = p.2.map WalletCoin.key ∧ ∀ i ∈ t.Inputs, SignedFor H verify L (goal.flatMap Call.outs) i) pledges (by
      intro p hp
      have hle : p.2.length ≤ (pledges.flatMap (·.2)).length := by
        have := List.sublist_flatten_of_mem (List.mem_map.mpr ⟨p, hp, rfl⟩ : p.2 ∈ pledges.map (·.2))
        have := this.length_le
        rwa [← List.flatMap_def] at this
      obtain ⟨b, a1, a2⟩ := pledge_good H verify L goal hgoal p.1 (hg p hp) (hf p hp) p.2 (hc p hp) (by omega)
      exact ⟨b, a1, a2 (hcap p hp b a1)⟩)
  -- what the organiser reads
  have hread : ∃ txs : List Transaction, bs.mapM (fun b => NewFromBytes (Slice.exact b)) = .ok txs ∧ (txs.flatMap (·.Inputs)).map outpoint = (pledges.flatMap (·.2)).map WalletCoin.key ∧
      ∀ i ∈ txs.flatMap (·.Inputs), SignedFor H verify L (goal.flatMap Call.outs) i := by
    clear e1 hcap hlen hc hf hg
    induction hfa with
    | nil => exact ⟨[], rfl, rfl, by simp⟩
    | cons h _ ih =>
      obtain ⟨t, t1, t2, t3⟩ := h
      obtain ⟨txs, r1, r2, r3⟩ := ih
      refine ⟨t :: txs, ?_, ?_, ?_⟩
      · rw [List.mapM_cons, t1, r1]; rfl
      · simp only [List.flatMap_cons, List.map_append, t2, r2]
      · intro i hi
        rw [List.flatMap_cons] at hi
        rcases List.mem_append.mp hi with hi | hi
        · exact t3 i hi
        · exact r3 i hi
  obtain ⟨txs, r1, r2, r3⟩ := hread
  obtain ⟨ins, hins⟩ : ∃ ins, ins = txs.flatMap (·.Inputs) := ⟨_, rfl⟩
  rw [← hins] at r2 r3
  have hb := built (ins.map Call.addInput ++ goal) (by
    intro c hm
    rcases List.mem_append.mp hm with hm | hm
    · obtain ⟨i, -, rfl⟩ := List.mem_map.mp hm; trivial
    · have := hgoal c hm
      cases c <;> first | exact this.elim | exact this | trivial)
  have hgi : goal.flatMap Call.ins = [] := by
    rw [List.flatMap_eq_nil_iff]
    intro c hc; have := hgoal c hc
    cases c <;> first | exact this.elim | rfl
  have hci : (ins.map Call.addInput ++ goal).flatMap Call.ins = ins := by
    rw [List.flatMap_append, hgi, List.append_nil]
    clear r2 r3 hins hb
    induction ins with
    | nil => rfl
    | cons i is ih => simpa [Call.ins] using ih
  have hco : (ins.map Call.addInput ++ goal).flatMap Call.outs = goal.flatMap Call.outs := by
    rw [List.flatMap_append]
    have : (ins.map Call.addInput).flatMap Call.outs = [] := by
      rw [List.flatMap_eq_nil_iff]
      intro c hm
      obtain ⟨i, -, rfl⟩ := List.mem_map.mp hm; rfl
    rw [this, List.nil_append]
  rw [hci, hco] at hb
  obtain ⟨f1, f2, -⟩ := coinCalls_flat (pledges.flatMap (·.2)) goal hgoal
  have hpc : ∀ c ∈ coinCalls (pledges.flatMap (·.2)) ++ goal, PaymentCall L (pledges.map fun p => H.ripemd160 (H.sha256 p.1.pubKey)) c := coin_payment hgoal fun w hw => by
    obtain ⟨p, hp, hw⟩ := List.mem_flatMap.mp hw
    exact ⟨_, List.mem_map.mpr ⟨p, hp, rfl⟩, hc p hp w hw⟩
  obtain ⟨tx, htx⟩ : ∃ tx : Transaction, tx = { Transaction.New with Inputs := ins, Outputs := goal.flatMap Call.outs } := ⟨_, rfl⟩
  rw [← htx] at hb
  have hti : tx.Inputs = ins := by rw [htx]
  have hto : tx.Outputs = goal.flatMap Call.outs := by rw [htx]
  obtain ⟨n1, n2⟩ := node_accepts_iff H verify L tx (by rw [hti]; exact fun i hi => (r3 i hi).1) (by rw [htx]; rfl) (by
    intro k inp hk
    refine signedFor_accepted (by rw [htx]) (by rw [htx]) hk ?_
    rw [hto]
    exact r3 inp (by rw [← hti]; exact List.mem_of_getElem? hk))
  have hvi : valueIn L tx = ((coinCalls (pledges.flatMap (·.2)) ++ goal).map Call.amountIn).sum := by
    rw [valueIn_eq, hti, r2, ← f2, payment_valueIn L _ _ hpc]
  have hvo : valueOut tx = ((coinCalls (pledges.flatMap (·.2)) ++ goal).map Call.amountOut).sum := by
    rw [← payment_valueOut, f1, ← hto]; rfl
  refine ⟨bs, tx.ToBytes, e1, ?_, ?_, fun L' h => ⟨tx, hto, by rw [hti]; exact r2, n2 L' h⟩⟩
  · unfold collect
    rw [r1, Res.ok_bind, ← hins, hb, Res.ok_bind]
    rfl
  · rw [n1]
    have hflat : ∀ (f : Call → List Bytes), (∃ c ∈ coinCalls (pledges.flatMap (·.2)) ++ goal, f c ≠ []) ↔ (coinCalls (pledges.flatMap (·.2)) ++ goal).flatMap f ≠ [] := by
      intro f; rw [ne_eq, List.flatMap_eq_nil_iff]; push Not; rfl
    have hflat' : ∀ (f : Call → List Output), (∃ c ∈ coinCalls (pledges.flatMap (·.2)) ++ goal, f c ≠ []) ↔ (coinCalls (pledges.flatMap (·.2)) ++ goal).flatMap f ≠ [] := by
      intro f; rw [ne_eq, List.flatMap_eq_nil_iff]; push Not; rfl
    have hin : tx.Inputs ≠ [] ↔ (coinCalls (pledges.flatMap (·.2)) ++ goal).flatMap Call.spent ≠ [] := by
      rw [f2, ← r2, hti]; simp
    have hpay : (tx.Inputs ≠ [] ∧ tx.Outputs ≠ [] ∧ (tx.Inputs.map outpoint).Nodup ∧ valueIn L tx ≤ maxMoney ∧ valueOut tx ≤ valueIn L tx) ↔ Payable (coinCalls (pledges.flatMap (·.2)) ++ goal) := by
      constructor
      · rintro ⟨p1, p2, p3, p4, p5⟩
        exact ⟨(hflat _).mpr (hin.mp p1), (hflat' _).mpr (by rw [f1, ← hto]; exact p2), by rw [f2, ← r2, ← hti]; exact p3, by rw [← hvi]; exact p4, by rw [← hvi, ← hvo]; exact p5⟩
      · rintro ⟨p1, p2, p3, p4, p5⟩
        exact ⟨hin.mpr ((hflat _).mp p1), by rw [hto, ← f1]; exact (hflat' _).mp p2, by rw [hti, r2, ← f2]; exact p3, by rw [hvi]; exact p4, by rw [hvi, hvo]; exact p5⟩
    rw [hpay]

/-- C132 (b): a contributor risks nothing. If the key has signed contributions to this goal and nothing else, then through any history of transactions that a node accepts, whoever made them, a coin of the key stays unspent, unless
one of the transactions takes it and pays exactly the goal; or there is a collision of a hash function. -/
theorem C132_safe (H : HashFns) (verify : Bytes → Bytes → Bytes → Bool) (pub : Bytes) (flag : UInt8) (hf : isNone flag = false ∧ isSingle flag = false) (goal : List Call) (hgoal : ∀ c ∈ goal, GoalCall c)
    (given : List (List WalletCoin)) (hgiven : ∀ coins ∈ given, (∀ w ∈ coins, IsTxId w.txid ∧ IsHexString w.scriptHex ∧ w.scriptHex.length < 2 ^ 64) ∧ coins.length + goal.length < 2 ^ 31)
    (honly : OnlySigned H verify pub flag (given.flatMap fun coins => inputsOf (coinCalls coins ++ goal)))
    (bs : List Bytes) (L L' : Ledger) (hacc : NodeAcceptsAll H verify L bs L') (key : Bytes) (sats : UInt64) (hk : L key = some ⟨sats, p2pkh (H.ripemd160 (H.sha256 pub))⟩) :
    L' key = L key ∨
    (∃ b ∈ bs, ∃ tx, IsTx MinCompactSize tx b ∧ key ∈ tx.Inputs.map outpoint ∧ tx.Outputs = goal.flatMap Call.outs ∧ ∃ coins ∈ given, key ∈ coins.map WalletCoin.key) ∨
    (∃ b ∈ bs, ∃ tx j, IsTx MinCompactSize tx b ∧ (KeyCollision H pub tx j ∨
      ∃ q ∈ given.flatMap fun coins => inputsOf (coinCalls coins ++ goal), DigestCollision H flag q.1 q.2 tx j ⟨sats, p2pkh (H.ripemd160 (H.sha256 pub))⟩)) := by
  have hbuilt : ∀ coins ∈ given, ∀ q ∈ inputsOf (coinCalls coins ++ goal), q.1.Inputs = (coinCalls coins).flatMap Call.ins ∧ q.1.Outputs = goal.flatMap Call.outs := by
    intro coins hp q hq
    obtain ⟨f1, -, f3⟩ := coinCalls_flat coins goal hgoal
    have := built (coinCalls coins ++ goal) (fun c hc => by
      rcases List.mem_append.mp hc with hc | hc
      · obtain ⟨w, hw, rfl⟩ := List.mem_map.mp hc
        exact ((hgiven coins hp).1 w hw).2.1
      · have := hgoal c hc
        cases c <;> first | exact this.elim | exact this | trivial)
    rw [inputsOf, this] at hq
    obtain ⟨k, -, rfl⟩ := List.mem_map.mp hq
    exact ⟨f3, f1⟩
  have hins : ∀ coins ∈ given, ∀ i ∈ (coinCalls coins).flatMap Call.ins, IsTxId i.PreviousTxID ∧ (∀ s, i.PreviousTxScript = some s → s.length < 2 ^ 64) ∧ outpoint i ∈ coins.map WalletCoin.key := by
    intro coins hp i hi
    obtain ⟨c, hc, hic⟩ := List.mem_flatMap.mp hi
    obtain ⟨w, hw, rfl⟩ := List.mem_map.mp hc
    obtain ⟨b1, b2, b3⟩ := (hgiven coins hp).1 w hw
    rw [List.mem_singleton.mp hic]
    refine ⟨b1, fun s' hs' => ?_, List.mem_map.mpr ⟨w, hw, rfl⟩⟩
    injection hs' with hs'
    rw [← hs']
    have := hexDecodeIgnore_length ((isHexString_iff _).mp b2)
    omega
  have houts : ∀ o ∈ goal.flatMap Call.outs, o.LockingScript.length < 2 ^ 64 := payment_outputs (L := L) (hashes := []) fun c hc => by
    have := hgoal c hc
    cases c <;> first | exact this.elim | exact this
  have hsz : ∀ q ∈ given.flatMap fun coins => inputsOf (coinCalls coins ++ goal), Sized q.1 ∧ ∀ i ∈ q.1.Inputs, IsTxId i.PreviousTxID := by
    intro q hq
    obtain ⟨coins, hp, hq⟩ := List.mem_flatMap.mp hq
    obtain ⟨e1, e2⟩ := hbuilt coins hp q hq
    have l1 := (ins_length (coinCalls coins)).1
    have l2 := (ins_length goal).2
    have l3 : (coinCalls coins).length = coins.length := by simp [coinCalls]
    have := (hgiven coins hp).2
    refine ⟨⟨by rw [e1]; omega, by rw [e2]; omega, by rw [e2]; exact houts, ?_⟩, ?_⟩
    · rw [e1]; exact fun i hi s hs => (hins coins hp i hi).2.1 s hs
    · rw [e1]; exact fun i hi => (hins coins hp i hi).1
  rcases C117_history H verify pub flag _ hsz honly bs L L' hacc key sats hk with h | ⟨b, hb, tx, j, inp, h1, h2, h3, h4⟩
  · exact .inl h
  rcases h4 with ⟨q, hq, ha⟩ | h4
  · right; left
    obtain ⟨coins, hp, hqp⟩ := List.mem_flatMap.mp hq
    obtain ⟨e1, e2⟩ := hbuilt coins hp q hqp
    obtain ⟨i, i', a1, a2, a3, -⟩ := ha.input
    rw [h2] at a1; injection a1 with a1; subst a1
    refine ⟨b, hb, tx, h1, List.mem_map.mpr ⟨inp, List.mem_of_getElem? h2, h3⟩, by rw [ha.outputs hf.1 hf.2, e2], coins, hp, ?_⟩
    rw [← h3, a3]
    exact (hins coins hp i' (by rw [← e1]; exact List.mem_of_getElem? a2)).2.2
  · exact .inr (.inr ⟨b, hb, tx, j, h1, h4⟩)

/-! ## The hypotheses are met: two contributors, 90 and 70 satoshis, for a goal of 150 -/

/-- Two keys that sign with ALL and ANYONECANPAY. -/
def exPledger1 : InternalSigner := { toySigner with SigHashFlag := 0xc1 }

/-- The other key. -/
def exPledger2 : InternalSigner := { toySigner2 with SigHashFlag := 0xc1 }

/-- The coin of the second. -/
def exCoin2 : WalletCoin := ⟨List.replicate 64 50, 0, hexEncode (p2pkh (toyH.ripemd160 (toyH.sha256 exPledger2.pubKey))), 70⟩

/-- The node knows the two coins. -/
def exLedger2 : Ledger := fun k => if k = exCoin.key then some ⟨90, p2pkh (toyH.ripemd160 (toyH.sha256 exPledger1.pubKey))⟩ else
  if k = exCoin2.key then some ⟨70, p2pkh (toyH.ripemd160 (toyH.sha256 exPledger2.pubKey))⟩ else none

/-- 150 to somebody. -/
def exGoal : List Call := [.payTo (Address.NewFromPublicKeyHash toyH (List.replicate 20 7) true).AddressString 150]

/-- The two contributions. -/
def exPledges : List (InternalSigner × List WalletCoin) := [(exPledger1, [exCoin]), (exPledger2, [exCoin2])]

theorem exPledges_good : (∀ c ∈ exGoal, GoalCall c) ∧ (∀ p ∈ exPledges, GoodSigner toyVerify2 p.1) ∧
    (∀ p ∈ exPledges, anyoneCanPay (flagOrDefault p.1.SigHashFlag) = true ∧ isNone (flagOrDefault p.1.SigHashFlag) = false ∧ isSingle (flagOrDefault p.1.SigHashFlag) = false) ∧
    ∀ p ∈ exPledges, ∀ w ∈ p.2, CoinOf exLedger2 (toyH.ripemd160 (toyH.sha256 p.1.pubKey)) w := by
  refine ⟨?_, ?_, ?_, ?_⟩
  · intro c hc
    rw [List.mem_singleton.mp hc]
    exact show IsAddressLike _ by decide +kernel
  all_goals
    intro p hp
    simp only [exPledges, List.mem_cons, List.not_mem_nil, or_false] at hp
    rcases hp with rfl | rfl
  · exact ⟨toySigner_sized, by decide, fun d => ⟨d.take 9, rfl, by simp [toyVerify2, toyVerify, exPledger1]⟩⟩
  · refine ⟨⟨by decide, ?_⟩, by decide, fun d => ⟨d.take 5, rfl, by simp [toyVerify2, exPledger2]⟩⟩
    intro d s h
    have : d.take 5 = s := by simpa [exPledger2, toySigner2] using h
    rw [← this, List.length_take]; omega
  · decide
  · decide
  · intro w hw
    rw [List.mem_singleton.mp hw]
    exact ⟨by unfold IsTxId; decide +kernel, (isHexString_iff _).mpr (isHex_encode _), hexDecodeIgnore_encode _, by simp [exLedger2, exCoin]⟩
  · intro w hw
    rw [List.mem_singleton.mp hw]
    have hne : exCoin2.key ≠ exCoin.key := by decide +kernel
    refine ⟨by unfold IsTxId; decide +kernel, (isHexString_iff _).mpr (isHex_encode _), hexDecodeIgnore_encode _, ?_⟩
    unfold exLedger2
    rw [if_neg hne, if_pos rfl]
    rfl

/-- Together the two reach the goal, and a node accepts what the organiser makes; neither does alone. -/
example : (∃ bs b L', exPledges.mapM (fun p => pledge toyH exGoal p.1 p.2) = .ok bs ∧ collect exGoal bs = .ok b ∧ NodeAccepts toyH toyVerify2 exLedger2 b L') ∧
    ∀ p ∈ exPledges, ¬ Payable (coinCalls p.2 ++ exGoal) := by
  obtain ⟨g1, g2, g3, g4⟩ := exPledges_good
  constructor
  · obtain ⟨bs, b, e1, e2, e3, -⟩ := C132_collect toyH toyVerify2 exLedger2 exGoal g1 exPledges g2 g3 g4 (by decide) (by
      intro p hp b hb
      have hall : exPledges.all (fun p => match pledge toyH exGoal p.1 p.2 with | .ok b => decide (b.length < 2 ^ 62) | _ => true) = true := by decide +kernel
      have := List.all_eq_true.mp hall p hp
      rw [hb] at this
      exact of_decide_eq_true this)
    have hf : (match exPledges.mapM (fun p => pledge toyH exGoal p.1 p.2) with
        | .ok bs => (match collect exGoal bs with
          | .ok b => decide (b.length ≤ maxTxBytes ∧ toyH.sha256 (toyH.sha256 b) ≠ List.replicate 32 17 ∧ toyH.sha256 (toyH.sha256 b) ≠ List.replicate 32 34)
          | _ => false)
        | _ => false) = true := by decide +kernel
    rw [e1] at hf
    simp only [e2] at hf
    obtain ⟨f1, f2, f3⟩ := of_decide_eq_true hf
    have hp : Payable (coinCalls (exPledges.flatMap (·.2)) ++ exGoal) :=
      ⟨⟨_, List.mem_cons_self, by simp [Call.spent]⟩, ⟨_, List.mem_append_right _ List.mem_cons_self, by simp [Call.outs]⟩, by decide +kernel, by decide, by decide⟩
    obtain ⟨L', hL'⟩ := e3.mpr ⟨hp, f1, fun n _ => by
      have k1 : exCoin.key = List.replicate 32 17 ++ leBytes 4 1 := by decide +kernel
      have k2 : exCoin2.key = List.replicate 32 34 ++ leBytes 4 0 := by decide +kernel
      have hl := toyH.sha256_length (toyH.sha256 b)
      unfold exLedger2
      rw [if_neg, if_neg]
      · rw [k2]; intro e; exact f3 (List.append_inj_left e (by simp [hl]))
      · rw [k1]; intro e; exact f2 (List.append_inj_left e (by simp [hl]))⟩
    exact ⟨bs, b, L', e1, e2, hL'⟩
  · intro p hp hpay
    have := hpay.funded
    simp only [exPledges, List.mem_cons, List.not_mem_nil, or_false] at hp
    rcases hp with rfl | rfl <;> revert this <;> decide

/-- The transaction of the first contribution, before it is signed. -/
def exUnsignedPledge : Transaction := match applyCalls Transaction.New (coinCalls [exCoin] ++ exGoal) with | .ok (t, _) => t | _ => Transaction.New

/-- A check that accepts only what the first contributor has signed. -/
def exPledgeVerify (pub d _s : Bytes) : Bool := pub == exPledger1.pubKey && d ==
  toyH.sha256 (toyH.sha256 (preimage (fun b => toyH.sha256 (toyH.sha256 b)) exUnsignedPledge 0 (exUnsignedPledge.Inputs.getD 0 Input.New) (p2pkh (toyH.ripemd160 (toyH.sha256 toySigner.pubKey))) 0xc1))

/-- The hypotheses of C132_safe: a key that has signed one contribution and nothing else. -/
example : OnlySigned toyH exPledgeVerify exPledger1.pubKey 0xc1 ([[exCoin]].flatMap fun coins => inputsOf (coinCalls coins ++ exGoal)) ∧
    isNone 0xc1 = false ∧ isSingle 0xc1 = false ∧ (∀ w ∈ [exCoin], IsTxId w.txid ∧ IsHexString w.scriptHex ∧ w.scriptHex.length < 2 ^ 64) ∧
    exLedger2 exCoin.key = some ⟨90, p2pkh (toyH.ripemd160 (toyH.sha256 exPledger1.pubKey))⟩ := by
  refine ⟨?_, by decide, by decide, ?_, by simp [exLedger2]⟩
  · intro d s h
    simp only [exPledgeVerify, Bool.and_eq_true, beq_iff_eq] at h
    refine ⟨(exUnsignedPledge, 0), ?_, exUnsignedPledge.Inputs.getD 0 Input.New, _, by decide +kernel, by decide +kernel, h.2⟩
    have hi : inputsOf (coinCalls [exCoin] ++ exGoal) = [(exUnsignedPledge, 0)] := by
      have hl : (List.range exUnsignedPledge.Inputs.length) = [0] := by decide +kernel
      have hok : (applyCalls Transaction.New (coinCalls [exCoin] ++ exGoal)).isOk = true := by decide +kernel
      unfold exUnsignedPledge at hl ⊢
      unfold inputsOf
      revert hl hok
      rcases applyCalls Transaction.New (coinCalls [exCoin] ++ exGoal) with r | e | _ <;> simp [Res.isOk]
    simp [hi]
  · intro w hw
    rw [List.mem_singleton.mp hw]
    exact ⟨by unfold IsTxId; decide +kernel, (isHexString_iff _).mpr (isHex_encode _), by decide +kernel⟩

end Verif.Props
