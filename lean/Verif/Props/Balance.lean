import Verif.Props.Chain
import Verif.Spec.Balance
/-!
# C120: a wallet on top of the library sees all its money
-/
namespace Verif.Props
open Verif Verif.Spec

/-! ## Balances -/

theorem received_balance (H : HashFns) (hashes : List Bytes) (tx : Transaction) : balance (received H hashes tx) = paid hashes tx := by
  unfold balance received paid
  rw [List.map_map]
  have key : ∀ (l : List Output) (k : Nat), (((l.zipIdx k).filter fun x => decide (x.1.LockingScript ∈ hashes.map p2pkh)).map fun x => x.1.Satoshis.toNat) =
      (l.filter fun o => decide (PaysTo hashes o.LockingScript)).map (·.Satoshis.toNat) := by
    intro l
    induction l with
    | nil => intro k; rfl
    | cons o l ih =>
      intro k
      rw [List.zipIdx_cons, List.filter_cons, List.filter_cons]
      by_cases c : PaysTo hashes o.LockingScript
      · rw [if_pos (by simpa [PaysTo] using c), if_pos (by simpa using c), List.map_cons, List.map_cons, ih]
      · rw [if_neg (by simpa [PaysTo] using c), if_neg (by simpa using c), ih]
  exact congrArg List.sum (key tx.Outputs 0)

theorem balance_append (A B : List WalletCoin) : balance (A ++ B) = balance A + balance B := by simp [balance]

theorem balance_perm {A B : List WalletCoin} (h : A.Perm B) : balance A = balance B := (h.map _).sum_nat

/-- The ledger of a wallet that sees its part is worth what the wallet's coins are worth. -/
theorem C120_owns (hashes : List Bytes) (W : List WalletCoin) (L : Ledger) (h : Sees hashes W L) : Owns hashes L (balance W) ∧ ∀ total, Owns hashes L total → total = balance W := by
  obtain ⟨⟨h1, h2⟩, h3⟩ := h
  have ex : Owns hashes L (balance W) := by
    refine ⟨W.map fun w => (w.key, ⟨w.sats, hexDecodeIgnore w.scriptHex⟩), by rw [List.map_map]; exact h1, ?_, by unfold balance; rw [List.map_map]; rfl⟩
    intro key c
    constructor
    · intro hm
      obtain ⟨w, hw, e⟩ := List.mem_map.mp hm
      injection e with e1 e2
      obtain ⟨-, hh, hm', -, h5, h6⟩ := h2 w hw
      subst e1; subst e2
      rw [h5]
      exact ⟨h6, List.mem_map.mpr ⟨hh, hm', rfl⟩⟩
    · rintro ⟨hL, hp⟩
      obtain ⟨w, hw, rfl⟩ := h3 key c hL hp
      obtain ⟨-, hh, hm, -, h5, h6⟩ := h2 w hw
      refine List.mem_map.mpr ⟨w, hw, ?_⟩
      rw [h5]
      have := h6.symm.trans hL
      injection this with this
      rw [this]
  refine ⟨ex, ?_⟩
  rintro total ⟨cs, n1, m1, rfl⟩
  obtain ⟨ds, n2, m2, e⟩ := ex
  rw [e]
  have hp : cs.Perm ds := (List.perm_ext_iff_of_nodup (List.Nodup.of_map _ n1) (List.Nodup.of_map _ n2)).mpr fun x => (m1 x.1 x.2).trans (m2 x.1 x.2).symm
  exact (hp.map _).sum_nat

/-! ## Transactions -/

theorem sees_after (H : HashFns) {hashes : List Bytes} {W : List WalletCoin} {L : Ledger} (hS : Sees hashes W L) (tx : Transaction) (hl : tx.Outputs.length < 2 ^ 32)
    (hfresh : ∀ n < 2 ^ 32, L (H.sha256 (H.sha256 tx.ToBytes) ++ leBytes 4 n) = none) (f : WalletCoin → Bool) (hf : ∀ w ∈ W, f w = true ↔ w.key ∉ tx.Inputs.map outpoint) :
    Sees hashes (W.filter f ++ received H hashes tx) (L.after (H.sha256 (H.sha256 tx.ToBytes)) tx) := by
  refine ⟨backed_after H hS.1 tx hl hfresh f fun w hw h => (hf w hw).mp h, ?_⟩
  intro key c hc hp
  unfold Ledger.after at hc
  rcases hlk : (created (H.sha256 (H.sha256 tx.ToBytes)) tx).lookup key with _ | c'
  · rw [hlk] at hc
    dsimp only at hc
    split_ifs at hc with hin
    obtain ⟨w, hw, rfl⟩ := hS.2 key c hc hp
    exact ⟨w, List.mem_append_left _ (List.mem_filter.mpr ⟨hw, (hf w hw).mpr hin⟩), rfl⟩
  · rw [hlk] at hc
    injection hc with hc
    subst hc
    obtain ⟨n, hn, e⟩ := List.mem_mapIdx.mp (mem_of_lookup _ hlk)
    injection e with e1 e2
    subst e1; subst e2
    refine ⟨⟨tx.GetTxID H, UInt32.ofNat n, tx.Outputs[n].GetLockingScriptHexString, tx.Outputs[n].Satoshis⟩, List.mem_append_right _ ?_, received_key H tx n (by omega) _ _⟩
    refine List.mem_map.mpr ⟨(tx.Outputs[n], n), List.mem_filter.mpr ⟨List.mem_zipIdx_iff_getElem?.mpr (List.getElem?_eq_getElem hn), ?_⟩, rfl⟩
    simpa [PaysTo] using hp

/-- The coins that leave. -/
theorem taken_balance {hashes : List Bytes} {W : List WalletCoin} {L : Ledger} (hS : Sees hashes W L) (tx : Transaction) (hd : (tx.Inputs.map outpoint).Nodup) (f : WalletCoin → Bool)
    (hf : ∀ w ∈ W, f w = true ↔ w.key ∉ tx.Inputs.map outpoint) : balance (W.filter f) + taken hashes L tx = balance W := by
  obtain ⟨⟨h1, h2⟩, h3⟩ := hS
  let g : Bytes → Nat := fun k => match L k with | some c => if PaysTo hashes c.script then c.sats.toNat else 0 | none => 0
  let own : Bytes → Bool := fun k => match L k with | some c => decide (PaysTo hashes c.script) | none => false
  have hg : ∀ w ∈ W, g w.key = w.sats.toNat ∧ own w.key = true := by
    intro w hw
    obtain ⟨-, hh, hm, -, -, h6⟩ := h2 w hw
    have hp : PaysTo hashes (p2pkh hh) := List.mem_map.mpr ⟨hh, hm, rfl⟩
    simp only [g, own, h6]
    rw [if_pos hp]
    exact ⟨rfl, by simpa using hp⟩
  have ht : taken hashes L tx = ((tx.Inputs.map outpoint).map g).sum := by rw [List.map_map]; rfl
  have hz : ∀ l : List Bytes, (l.map g).sum = ((l.filter own).map g).sum := by
    intro l
    induction l with
    | nil => rfl
    | cons k l ih =>
      rw [List.map_cons, List.sum_cons, ih, List.filter_cons]
      by_cases c : own k = true
      · rw [if_pos c, List.map_cons, List.sum_cons]
      · rw [if_neg c]
        have : g k = 0 := by
          simp only [own] at c
          simp only [g]
          rcases hL : L k with _ | x
          · rfl
          · rw [hL] at c
            dsimp only at c ⊢
            rw [if_neg (by simpa using c)]
        omega
  have hp : ((W.filter fun w => !f w).map WalletCoin.key).Perm ((tx.Inputs.map outpoint).filter own) := by
    refine (List.perm_ext_iff_of_nodup (h1.sublist (List.Sublist.map _ List.filter_sublist)) (hd.sublist List.filter_sublist)).mpr fun k => ?_
    constructor
    · intro hk
      obtain ⟨w, hw, rfl⟩ := List.mem_map.mp hk
      obtain ⟨hw, hn⟩ := List.mem_filter.mp hw
      refine List.mem_filter.mpr ⟨?_, (hg w hw).2⟩
      by_contra c
      rw [(hf w hw).mpr c] at hn
      cases hn
    · intro hk
      obtain ⟨hk, ho⟩ := List.mem_filter.mp hk
      simp only [own] at ho
      rcases hL : L k with _ | c
      · rw [hL] at ho; cases ho
      · rw [hL] at ho
        obtain ⟨w, hw, rfl⟩ := h3 k c hL (by simpa using ho)
        refine List.mem_map.mpr ⟨w, List.mem_filter.mpr ⟨hw, ?_⟩, rfl⟩
        rcases hfw : f w with _ | _
        · rfl
        · exact absurd hk ((hf w hw).mp hfw)
  have hb : balance (W.filter fun w => !f w) = taken hashes L tx := by
    rw [ht, hz, ← (hp.map g).sum_nat, List.map_map]
    unfold balance
    congr 1
    exact List.map_congr_left fun w hw => ((hg w (List.mem_filter.mp hw).1).1).symm
  rw [← hb, ← balance_append]
  exact balance_perm (List.filter_append_perm f W)

theorem isTx_outputs {tx : Transaction} {b : Bytes} (h : IsTx MinCompactSize tx b) : tx.Outputs.length ≤ b.length := by
  obtain ⟨ci, bi, co, bo, -, -, -, g4, rfl⟩ := h
  have := isSeq_length (fun o b (h : IsOutput MinCompactSize o b) => by
    obtain ⟨count, -, rfl⟩ := h
    simp only [List.length_append, leBytes_length]; omega) _ _ g4
  simp only [List.length_append]
  omega

/-- A wallet reads a transaction. -/
theorem reads (H : HashFns) (signers : List InternalSigner) {L : Ledger} {W : List WalletCoin} (hS : Sees (keyHashes H signers) W L) {tx : Transaction} {b : Bytes} (h1 : b.length ≤ maxTxBytes)
    (h2 : ∀ n < 2 ^ 32, L (H.sha256 (H.sha256 b) ++ leBytes 4 n) = none) (h3 : IsTx MinCompactSize tx b) :
    Transaction.NewFromBytes (Slice.exact b) = .ok tx ∧ walletStep H signers W (.seen b) =
      .ok (W.filter (fun w => decide (w.key ∉ tx.Inputs.map outpoint)) ++ received H (keyHashes H signers) tx, b) ∧
    Sees (keyHashes H signers) (W.filter (fun w => decide (w.key ∉ tx.Inputs.map outpoint)) ++ received H (keyHashes H signers) tx) (L.after (H.sha256 (H.sha256 b)) tx) := by
  have hmx : maxTxBytes < 2 ^ 32 := by decide
  have hp : Transaction.NewFromBytes (Slice.exact b) = .ok tx := (C35_accepts_iff b [] (by simp; omega) tx).mpr (isTx_mono h3)
  have he : tx.ToBytes = b := (isTx_min_eq tx b h3).symm
  have hl := isTx_outputs h3
  refine ⟨hp, by simp only [walletStep, hp, Res.ok_bind]; rfl, ?_⟩
  rw [← he]
  exact sees_after H hS tx (by omega) (by rw [he]; exact h2) _ fun w _ => by simp

/-- C120 (a), a transaction of somebody: a wallet that sees its part of the ledger sees it after every transaction the node accepts, and its balance has changed by what the transaction pays to its keys less what it
takes from them. -/
theorem C120_seen (H : HashFns) (verify : Bytes → Bytes → Bytes → Bool) (signers : List InternalSigner) (L L' : Ledger) (W : List WalletCoin) (hS : Sees (keyHashes H signers) W L) (b : Bytes)
    (hb : NodeAccepts H verify L b L') :
    ∃ W' tx, walletStep H signers W (.seen b) = .ok (W', b) ∧ Transaction.NewFromBytes (Slice.exact b) = .ok tx ∧ Sees (keyHashes H signers) W' L' ∧
      balance W' + taken (keyHashes H signers) L tx = balance W + paid (keyHashes H signers) tx := by
  obtain ⟨h1, h2, tx, h3, h4, rfl⟩ := hb
  obtain ⟨k1, k2, k3⟩ := reads H signers hS h1 h2 h3
  refine ⟨_, tx, k2, k1, k3, ?_⟩
  rw [balance_append, received_balance, Nat.add_right_comm, taken_balance hS tx h4.distinct _ fun w _ => by simp]

/-- What a payment pays to the keys: the amounts for addresses for which the library makes a script that pays to one of them. -/
def paidBack (hashes : List Bytes) (p : Payment) : Nat :=
  ((p.pay.filter fun a => match NewP2PKHFromAddress a.1 with | .ok s => decide (PaysTo hashes s) | _ => false).map (·.2.toNat)).sum

theorem payment_outs (p : Payment) (ha : ∀ a ∈ p.pay, IsAddressLike a.1) : ∃ f : Bytes × UInt64 → Bytes, (∀ a ∈ p.pay, NewP2PKHFromAddress a.1 = .ok (f a)) ∧
    p.calls.flatMap Call.outs = p.pay.map fun a => ⟨a.2, f a⟩ := by
  refine ⟨fun a => [0x76, 0xa9, 0x14] ++ ((base58Decode a.1).drop 1).take 20 ++ [0x88, 0xac], fun a h => (p2pkhAddress_eq a.1).1 (ha a h), ?_⟩
  unfold Payment.calls
  rw [List.flatMap_append, List.flatMap_map, List.flatMap_map]
  have e1 : p.spend.flatMap (fun w => Call.outs (Call.fromUtxo w.txid w.vout w.scriptHex w.sats)) = [] := by simp [Call.outs]
  rw [e1, List.nil_append]
  simp only [Call.outs]
  rw [← List.map_eq_flatMap]

theorem payment_paid (hashes : List Bytes) (p : Payment) (ha : ∀ a ∈ p.pay, IsAddressLike a.1) (tx : Transaction) (h : tx.Outputs = p.calls.flatMap Call.outs) : paid hashes tx = paidBack hashes p := by
  obtain ⟨f, h1, h2⟩ := payment_outs p ha
  unfold paid paidBack
  rw [h, h2, List.filter_map, List.map_map]
  congr 1
  rw [List.filter_congr (q := fun a => match NewP2PKHFromAddress a.1 with | .ok s => decide (PaysTo hashes s) | _ => false)]
  · rfl
  · intro a hm
    rw [h1 a hm]
    rfl

/-- C120 (b), a payment of the wallet itself. Nothing fails; the balance changes by what the payment pays back to the wallet's keys less what it spends; and when the node accepts it (which it does, if it is not too large
and its hash is new), the wallet sees its part of the ledger again. -/
theorem C120_pay (H : HashFns) (verify : Bytes → Bytes → Bytes → Bool) (signers : List InternalSigner) (hg : ∀ is ∈ signers, GoodSigner verify is) (L : Ledger) (W : List WalletCoin)
    (hS : Sees (keyHashes H signers) W L) (p : Payment) (hp : Affordable W p) :
    ∃ W' b, walletStep H signers W (.pay p) = .ok (W', b) ∧ balance W' + balance p.spend = balance W + paidBack (keyHashes H signers) p ∧
      (b.length ≤ maxTxBytes → (∀ n < 2 ^ 32, L (H.sha256 (H.sha256 b) ++ leBytes 4 n) = none) → ∃ L', NodeAccepts H verify L b L') ∧
      ∀ L', NodeAccepts H verify L b L' → Sees (keyHashes H signers) W' L' := by
  have hB := hS.1
  obtain ⟨c1, c2, c3, c4, c5, c6⟩ := payment_calls hB hp
  have hinj : ∀ w ∈ W, ∀ v ∈ W, w.key = v.key → w = v := fun w hw v hv e => List.inj_on_of_nodup_map hB.1 hw hv e
  have hspk : (p.spend.map WalletCoin.key).Nodup := hp.spend.2.1.map_on fun w hw v hv e => hinj w (hp.spend.2.2 w hw) v (hp.spend.2.2 v hv) e
  obtain ⟨tx, tx', h1, h2, h3, h4, h5, h6⟩ := C115_payment H verify signers hg L p.calls c1 (by simpa [Payment.calls] using hp.size)
  have hpay : Payable p.calls := by
    refine ⟨?_, ?_, by rw [c2]; exact hspk, by rw [c3]; exact hp.range, by rw [c3, c4]; exact hp.funded⟩
    · obtain ⟨w, ws, e⟩ := List.exists_cons_of_ne_nil hp.spend.1
      exact ⟨.fromUtxo w.txid w.vout w.scriptHex w.sats, by simp [Payment.calls, e], by simp [Call.spent]⟩
    · obtain ⟨a, as, e⟩ := List.exists_cons_of_ne_nil hp.pay.1
      exact ⟨.payTo a.1 a.2, by simp [Payment.calls, e], by simp [Call.outs]⟩
  have hf : ∀ w ∈ W, decide (w ∉ p.spend) = true ↔ w.key ∉ tx'.Inputs.map outpoint := by
    intro w hw
    rw [h4, c2, decide_eq_true_eq, not_iff_not, List.mem_map]
    exact ⟨fun h => ⟨w, h, rfl⟩, fun ⟨v, hv, e⟩ => hinj v (hp.spend.2.2 v hv) w hw e ▸ hv⟩
  refine ⟨_, _, by simp only [walletStep, h1, Res.ok_bind, h2]; rfl, ?_, fun hb hfr => h5.mpr ⟨hpay, hb, hfr⟩, fun L' hL' => ?_⟩
  · rw [balance_append, received_balance, payment_paid _ p hp.pay.2 tx' h3, Nat.add_right_comm]
    congr 1
    rw [← balance_append]
    refine balance_perm (List.Perm.trans (List.Perm.append_left _ ?_) (List.filter_append_perm (fun w => decide (w ∉ p.spend)) W))
    refine (List.perm_ext_iff_of_nodup hp.spend.2.1 ((List.Nodup.of_map _ hB.1).sublist List.filter_sublist)).mpr fun w => ?_
    simp only [List.mem_filter, decide_not, Bool.not_not, decide_eq_true_eq]
    exact ⟨fun h => ⟨hp.spend.2.2 w h, h⟩, fun h => h.2⟩
  · have hfr := hL'.2.1
    rw [h6 L' hL']
    exact sees_after H hS tx' (by rw [h3, c5]; have := hp.size; omega) hfr _ hf

/-- C120 (c), any history: a wallet that sees its part of the ledger sees it after any possible history of its own payments and of other people's transactions. Its balance is then what the unspent outputs of its keys are
worth, no more and no less. -/
theorem C120_wallet (H : HashFns) (verify : Bytes → Bytes → Bytes → Bool) (signers : List InternalSigner) (hg : ∀ is ∈ signers, GoodSigner verify is) (es : List WalletEvent) :
    ∀ (W : List WalletCoin) (L : Ledger), Sees (keyHashes H signers) W L → Possible H verify signers W L es →
      ∃ W' bs L', walletRun H signers W es = .ok (W', bs) ∧ bs.length = es.length ∧ NodeAcceptsAll H verify L bs L' ∧ Sees (keyHashes H signers) W' L' ∧ Owns (keyHashes H signers) L' (balance W') := by
  induction es with
  | nil => intro W L hS _; exact ⟨W, [], L, rfl, rfl, rfl, hS, (C120_owns _ W L hS).1⟩
  | cons e es ih =>
    intro W L hS hP
    cases e with
    | pay p =>
      obtain ⟨hp, hP⟩ := hP
      obtain ⟨W1, b, s1, -, s2, s3⟩ := C120_pay H verify signers hg L W hS p hp
      obtain ⟨g1, g2, g3⟩ := hP W1 b s1
      obtain ⟨L1, k1⟩ := s2 g1 g2
      obtain ⟨W', bs, L', r1, r2, r3, r4⟩ := ih W1 L1 (s3 L1 k1) (g3 L1 k1)
      exact ⟨W', b :: bs, L', by simp only [walletRun, s1, Res.ok_bind, r1]; rfl, by simp [r2], ⟨L1, k1, r3⟩, r4⟩
    | seen b =>
      obtain ⟨L1, k1, hP⟩ := hP
      obtain ⟨W1, tx, s1, -, k2, -⟩ := C120_seen H verify signers L L1 W hS b k1
      obtain ⟨W', bs, L', r1, r2, r3, r4⟩ := ih W1 L1 k2 (hP W1 s1)
      exact ⟨W', b :: bs, L', by simp only [walletRun, s1, Res.ok_bind, r1]; rfl, by simp [r2], ⟨L1, k1, r3⟩, r4⟩

/-- Scripts that pay to different key hashes differ. -/
theorem p2pkh_inj {a b : Bytes} (h : p2pkh a = p2pkh b) : a = b := by
  unfold p2pkh at h
  exact List.append_cancel_left (List.append_cancel_right h)

/-- What a wallet's coins are worth is what its payment takes from its keys, and it takes nothing from other keys. -/
theorem taken_other {hashes others : List Bytes} {W : List WalletCoin} {L : Ledger} (hB : Backed hashes W L) (hd : ∀ h ∈ hashes, h ∉ others) (tx : Transaction) (spend : List WalletCoin) (hsp : ∀ w ∈ spend, w ∈ W)
    (hi : tx.Inputs.map outpoint = spend.map WalletCoin.key) : taken others L tx = 0 := by
  have key : ∀ k ∈ tx.Inputs.map outpoint, (match L k with | some c => if PaysTo others c.script then c.sats.toNat else 0 | none => 0) = 0 := by
    intro k hk
    rw [hi] at hk
    obtain ⟨w, hw, rfl⟩ := List.mem_map.mp hk
    obtain ⟨-, hh, hm, -, -, h6⟩ := hB.2 w (hsp w hw)
    rw [h6]
    dsimp only
    rw [if_neg]
    intro hp
    obtain ⟨h', hm', e⟩ := List.mem_map.mp hp
    exact hd hh hm (p2pkh_inj e ▸ hm')
  have e : taken others L tx = ((tx.Inputs.map outpoint).map fun k => match L k with | some c => if PaysTo others c.script then c.sats.toNat else 0 | none => 0).sum := by rw [List.map_map]; rfl
  rw [e]
  generalize tx.Inputs.map outpoint = l at key
  induction l with
  | nil => rfl
  | cons k l ih =>
    rw [List.map_cons, List.sum_cons, key k (by simp), ih fun k' hk => key k' (by simp [hk])]

/-- C120 (d), paying somebody: `x` to an address of the other wallet, and the change to an address of one's own. The one balance goes up by `x`, the other goes down by `x` and the fee (what is spent and not paid). -/
theorem C120_transfer (H : HashFns) (verify : Bytes → Bytes → Bytes → Bool) (alice bob : List InternalSigner) (hg : ∀ is ∈ alice, GoodSigner verify is) (L L' : Ledger) (A B : List WalletCoin)
    (hA : Sees (keyHashes H alice) A L) (hB : Sees (keyHashes H bob) B L) (hd : ∀ h ∈ keyHashes H alice, h ∉ keyHashes H bob)
    (dest own hb' ha : Bytes) (hdest : NewP2PKHFromAddress dest = .ok (p2pkh hb') ∧ hb' ∈ keyHashes H bob) (hown : NewP2PKHFromAddress own = .ok (p2pkh ha) ∧ ha ∈ keyHashes H alice)
    (spend : List WalletCoin) (x change : UInt64) (hp : Affordable A ⟨spend, [(dest, x), (own, change)]⟩) (A' : List WalletCoin) (b : Bytes)
    (hs : walletStep H alice A (.pay ⟨spend, [(dest, x), (own, change)]⟩) = .ok (A', b)) (hL : NodeAccepts H verify L b L') :
    ∃ B', walletStep H bob B (.seen b) = .ok (B', b) ∧ Sees (keyHashes H alice) A' L' ∧ Sees (keyHashes H bob) B' L' ∧
      balance B' = balance B + x.toNat ∧ ∃ fee, balance spend = x.toNat + change.toNat + fee ∧ balance A = balance A' + x.toNat + fee := by
  obtain ⟨A1, b1, s1, s2, -, s4⟩ := C120_pay H verify alice hg L A hA _ hp
  rw [hs] at s1
  obtain ⟨rfl, rfl⟩ : A' = A1 ∧ b = b1 := by injection s1 with e; injection e with e1 e2; exact ⟨e1, e2⟩
  obtain ⟨B', tx, t1, t2, t3, t4⟩ := C120_seen H verify bob L L' B hB b hL
  obtain ⟨c1, c2, c3, c4, c5, c6⟩ := payment_calls hA.1 hp
  obtain ⟨tx0, tx', h1, h2, h3, h4, h5, h6⟩ := C115_payment H verify alice hg L _ c1 (by simpa [Payment.calls] using hp.size)
  have hb : b = tx'.ToBytes := by
    simp only [walletStep, h1, Res.ok_bind, h2] at hs
    injection hs with e
    injection e with e1 e2
    exact e2.symm
  rw [hb] at hL
  have hfr := hL.2.1
  have hinj : ∀ w ∈ A, ∀ v ∈ A, w.key = v.key → w = v := fun w hw v hv e => List.inj_on_of_nodup_map hA.1.1 hw hv e
  have hspk : (spend.map WalletCoin.key).Nodup := hp.spend.2.1.map_on fun w hw v hv e => hinj w (hp.spend.2.2 w hw) v (hp.spend.2.2 v hv) e
  have hS := sees_after H hB tx' (by rw [h3, c5]; simp) hfr (fun w => decide (w.key ∉ tx'.Inputs.map outpoint)) fun w _ => by simp
  rw [← h6 L' hL] at hS
  have hbal : balance B' = balance B + x.toNat := by
    rw [(C120_owns _ _ L' hS).2 _ (C120_owns _ _ L' t3).1, balance_append, received_balance, payment_paid _ _ hp.pay.2 tx' h3]
    have ht := taken_balance hB tx' (by rw [h4, c2]; exact hspk) (fun w => decide (w.key ∉ tx'.Inputs.map outpoint)) fun w _ => by simp
    rw [taken_other hA.1 hd tx' spend hp.spend.2.2 (by rw [h4, c2]), Nat.add_zero] at ht
    rw [ht]
    congr 1
    have p1 : PaysTo (keyHashes H bob) (p2pkh hb') := List.mem_map.mpr ⟨_, hdest.2, rfl⟩
    have p2 : ¬ PaysTo (keyHashes H bob) (p2pkh ha) := by
      intro hp
      obtain ⟨h', hm', e⟩ := List.mem_map.mp hp
      exact hd ha hown.2 (p2pkh_inj e ▸ hm')
    simp [paidBack, hdest.1, hown.1, p1, p2]
  refine ⟨B', t1, s4 L' (by rw [hb]; exact hL), t3, hbal, ?_⟩
  have p1 : ¬ PaysTo (keyHashes H alice) (p2pkh hb') := by
    intro hp
    obtain ⟨h', hm', e⟩ := List.mem_map.mp hp
    exact hd h' hm' (p2pkh_inj e ▸ hdest.2)
  have p2 : PaysTo (keyHashes H alice) (p2pkh ha) := List.mem_map.mpr ⟨_, hown.2, rfl⟩
  have hback : paidBack (keyHashes H alice) ⟨spend, [(dest, x), (own, change)]⟩ = change.toNat := by simp [paidBack, hdest.1, hown.1, p1, p2]
  have hf := hp.funded
  rw [hback] at s2
  simp only [List.map_cons, List.map_nil, List.sum_cons, List.sum_nil, Nat.add_zero] at hf
  change x.toNat + change.toNat ≤ balance spend at hf
  change balance A' + balance spend = balance A + change.toNat at s2
  exact ⟨balance spend - (x.toNat + change.toNat), by omega, by omega⟩

/-! ## Starting, and starting again -/

/-- A wallet whose keys have nothing in the ledger starts with no coins. -/
theorem C120_start (hashes : List Bytes) (L : Ledger) : Sees hashes [] L ↔ ∀ key c, L key = some c → ¬ PaysTo hashes c.script := by
  constructor
  · intro h key c hc hp
    obtain ⟨w, hw, -⟩ := h.2 key c hc hp
    cases hw
  · intro h
    exact ⟨⟨by simp, by simp⟩, fun key c hc hp => absurd hp (h key c hc)⟩

/-- Two wallets with the same keys that see the same ledger have the same coins: the same outpoints with the same amounts and scripts, however they came to know them. -/
theorem C120_restore (hashes : List Bytes) (L : Ledger) (W V : List WalletCoin) (hW : Sees hashes W L) (hV : Sees hashes V L) :
    (W.map fun w => (w.key, w.sats, hexDecodeIgnore w.scriptHex)).Perm (V.map fun w => (w.key, w.sats, hexDecodeIgnore w.scriptHex)) ∧ balance W = balance V := by
  refine ⟨?_, (C120_owns _ V L hV).2 _ (C120_owns _ W L hW).1⟩
  have sub : ∀ {A B : List WalletCoin}, Sees hashes A L → Sees hashes B L → ∀ x, x ∈ A.map (fun w => (w.key, w.sats, hexDecodeIgnore w.scriptHex)) →
      x ∈ B.map (fun w => (w.key, w.sats, hexDecodeIgnore w.scriptHex)) := by
    intro A B hA hB x hx
    obtain ⟨w, hw, rfl⟩ := List.mem_map.mp hx
    obtain ⟨-, h, hm, -, e1, e2⟩ := hA.1.2 w hw
    obtain ⟨v, hv, e⟩ := hB.2 w.key _ e2 (List.mem_map.mpr ⟨h, hm, rfl⟩)
    obtain ⟨-, h', hm', -, f1, f2⟩ := hB.1.2 v hv
    rw [e, e2] at f2
    injection f2 with f2
    injection f2 with f2 f3
    exact List.mem_map.mpr ⟨v, hv, by rw [e, e1, f1, f2, f3]⟩
  have nd : ∀ {A : List WalletCoin}, Sees hashes A L → (A.map fun w => (w.key, w.sats, hexDecodeIgnore w.scriptHex)).Nodup := by
    intro A hA
    refine List.Nodup.of_map Prod.fst ?_
    rw [List.map_map]
    exact hA.1.1
  exact (List.perm_ext_iff_of_nodup (nd hW) (nd hV)).mpr fun x => ⟨sub hW hV x, sub hV hW x⟩

/-! ## Blocks -/

/-- A coinbase can be entered before or after the transactions of its block. -/
theorem after_comm {L : Ledger} {hc hb : Bytes} {cb tx : Transaction} (hl : hc.length = hb.length) (hne : hc ≠ hb)
    (hcin : ∀ k ∈ cb.Inputs.map outpoint, ∀ n < tx.Outputs.length, k ≠ hb ++ leBytes 4 n) (htin : ∀ k ∈ tx.Inputs.map outpoint, ∀ n < cb.Outputs.length, k ≠ hc ++ leBytes 4 n) :
    (L.after hc cb).after hb tx = (L.after hb tx).after hc cb := by
  have none_of : ∀ (h : Bytes) (t : Transaction) k, (∀ n < t.Outputs.length, k ≠ h ++ leBytes 4 n) → (created h t).lookup k = none := by
    intro h t k hk
    rcases hlk : (created h t).lookup k with _ | c
    · rfl
    · obtain ⟨n, hn, e⟩ := List.mem_mapIdx.mp (mem_of_lookup _ hlk)
      injection e with e1 e2
      exact absurd e1.symm (hk n hn)
  funext k
  unfold Ledger.after
  rcases h1 : (created hb tx).lookup k with _ | c
  · dsimp only
    rcases h2 : (created hc cb).lookup k with _ | c
    · dsimp only
      split_ifs <;> rfl
    · dsimp only
      rw [if_neg]
      intro hk
      rw [none_of hc cb k (htin k hk)] at h2
      cases h2
  · dsimp only
    obtain ⟨n, hn, e⟩ := List.mem_mapIdx.mp (mem_of_lookup _ h1)
    injection e with e1 e2
    rw [none_of hc cb k (fun m _ e' => hne (List.append_inj_left (e'.symm.trans e1.symm) hl))]
    dsimp only
    rw [if_neg]
    intro hk
    exact hcin k hk n hn e1.symm

/-- The transactions of a block, for a wallet that has seen the coinbase before them. -/
theorem block_txs (H : HashFns) (verify : Bytes → Bytes → Bytes → Bool) (signers : List InternalSigner) (cb : Transaction) (hc : Bytes) (hl : hc.length = 32) (hco : cb.Outputs.length < 2 ^ 32)
    (hci : cb.Inputs.map outpoint = [List.replicate 32 0 ++ [0xff, 0xff, 0xff, 0xff]]) : ∀ (bs : List Bytes) {L L1 : Ledger} {f : Nat} {W : List WalletCoin},
    (∀ n < 2 ^ 32, L (hc ++ leBytes 4 n) = none) → (∀ b ∈ bs, hc ≠ H.sha256 (H.sha256 b)) → Sees (keyHashes H signers) W (L.after hc cb) → AcceptsFees H verify L bs L1 f →
      ∃ W', walletRun H signers W (bs.map .seen) = .ok (W', bs) ∧ Sees (keyHashes H signers) W' (L1.after hc cb)
  | [], L, L1, f, W, hfr, hne, hS, h => ⟨W, rfl, by rw [h.1]; exact hS⟩
  | b :: bs, L, L1, f, W, hfr, hne, hS, h => by
    obtain ⟨M, tx', r, a1, -, a4, rfl⟩ := h
    have a1' := a1
    obtain ⟨b1, b2, tx, b3, b4, rfl⟩ := a1'
    have hol := isTx_outputs b3
    have hmx : maxTxBytes < 2 ^ 31 := by decide
    have hfr' : ∀ n < 2 ^ 32, (L.after hc cb) (H.sha256 (H.sha256 b) ++ leBytes 4 n) = none := by
      intro n hn
      unfold Ledger.after
      rcases hlk : (created hc cb).lookup (H.sha256 (H.sha256 b) ++ leBytes 4 n) with _ | c
      · dsimp only
        rw [b2 n hn]; simp
      · obtain ⟨m, hm, e⟩ := List.mem_mapIdx.mp (mem_of_lookup _ hlk)
        injection e with e1 e2
        exact absurd (List.append_inj_left e1 (by rw [hl, H.sha256_length])) (hne b (by simp))
    obtain ⟨k1, k2, k3⟩ := reads H signers hS b1 hfr' b3
    have hcomm : (L.after hc cb).after (H.sha256 (H.sha256 b)) tx = (L.after (H.sha256 (H.sha256 b)) tx).after hc cb := by
      refine after_comm (by rw [hl, H.sha256_length]) (hne b (by simp)) ?_ ?_
      · intro k hk n hn e
        rw [hci, List.mem_singleton] at hk
        rw [hk] at e
        have e' := List.append_inj_right e (by rw [H.sha256_length]; simp)
        have := congrArg leNat e'
        rw [leNat_leBytes, Nat.mod_eq_of_lt (by norm_num at hmx ⊢; omega)] at this
        have h2 : leNat [0xff, 0xff, 0xff, 0xff] = 2 ^ 32 - 1 := by decide
        omega
      · intro k hk n hn e
        obtain ⟨i, hi, rfl⟩ := List.mem_map.mp hk
        obtain ⟨j, hj, hi⟩ := List.mem_iff_getElem.mp hi
        obtain ⟨c, hc', -⟩ := b4.spends j i (by rw [← hi]; exact List.getElem?_eq_getElem hj)
        rw [e, hfr n (by omega)] at hc'
        cases hc'
    rw [hcomm] at k3
    obtain ⟨W2, s2, k2'⟩ := block_txs H verify signers cb hc hl hco hci bs
      (fun n hn => accepts_only a1 (fun m _ e => hne b (by simp) (List.append_inj_left e (by rw [hl, H.sha256_length]))) (hfr n hn)) (fun b hb => hne b (by simp [hb])) k3 a4
    exact ⟨W2, by simp only [List.map_cons, walletRun, k2, Res.ok_bind, s2]; rfl, k2'⟩

theorem forall2_of {bs : List Bytes} (h : ∀ t ∈ bs, ∃ tx, IsTx MinCompactSize tx t) : ∃ ts : List Transaction, List.Forall₂ (IsTx CompactSize) ts bs := by
  induction bs with
  | nil => exact ⟨[], .nil⟩
  | cons b bs ih =>
    obtain ⟨t, ht⟩ := h b (by simp)
    obtain ⟨ts, hts⟩ := ih fun t ht => h t (by simp [ht])
    exact ⟨t :: ts, .cons (isTx_mono ht) hts⟩

/-- A block is read in one way. -/
theorem blockOf_unique {b : Bytes} {xs ys : List Bytes} (hx : BlockOf b xs) (hy : BlockOf b ys) : xs = ys := by
  obtain ⟨h, c, l, m, rfl, t⟩ := hx
  obtain ⟨h', c', l', m', e, t'⟩ := hy
  rw [List.append_assoc, List.append_assoc] at e
  obtain ⟨-, e⟩ := List.append_inj e (by rw [l, l'])
  obtain ⟨hn, -, e⟩ := compactSize_prefix_free m.1 m'.1 e
  obtain ⟨ts, hts⟩ := forall2_of t
  obtain ⟨ts', hts'⟩ := forall2_of t'
  exact forall2_flatten_inj hts hts' hn e

theorem acceptsFees_isTx {H : HashFns} {verify : Bytes → Bytes → Bytes → Bool} : ∀ (bs : List Bytes) {L L1 : Ledger} {f : Nat}, AcceptsFees H verify L bs L1 f → ∀ t ∈ bs, ∃ tx, IsTx MinCompactSize tx t
  | b :: bs, L, L1, f, h, t, ht => by
    obtain ⟨M, tx, r, -, a3, a4, rfl⟩ := h
    rcases List.mem_cons.mp ht with rfl | ht
    · exact ⟨tx, a3⟩
    · exact acceptsFees_isTx bs a4 t ht

/-- C120 (e), a block: what the node has accepted is a header, a count and transactions, in one way; and a wallet that sees these transactions in the order of the block, the coinbase first, sees its part of the
ledger afterwards. -/
theorem C120_block (H : HashFns) (verify : Bytes → Bytes → Bytes → Bool) (signers : List InternalSigner) (tip : Tip) (L L' : Ledger) (b : Bytes) (hb : NodeAcceptsBlock H verify tip L b L') :
    ∃ txs, (∀ ys, BlockOf b ys ↔ ys = txs) ∧ ∀ W, Sees (keyHashes H signers) W L → ∃ W', walletRun H signers W (txs.map .seen) = .ok (W', txs) ∧ Sees (keyHashes H signers) W' L' := by
  obtain ⟨version, prev, root, time, bits, nonce, header, count, cbB, txB, cb, L1, fees, rfl, -, hh, -, -, -, -, -, -, -, hcount, -, hnd, hacc, hcl, hct, hvc, hfr, rfl⟩ := hb
  obtain ⟨i, s, e1, e2, -⟩ := hvc.input
  have hol := isTx_outputs hct
  have hmx : maxTxBytes < 2 ^ 31 := by decide
  have hblock : BlockOf (header ++ count ++ cbB ++ txB.flatten) (cbB :: txB) := by
    refine ⟨header, count, ?_, by simpa using hcount, by simp, ?_⟩
    · obtain ⟨p1, p2, p3, p4, p5, rfl⟩ := hh
      simp only [List.length_append, leBytes_length, p1, p2, p3, p4, p5]
    · intro t ht
      rcases List.mem_cons.mp ht with rfl | ht
      · exact ⟨cb, hct⟩
      · exact acceptsFees_isTx txB hacc t ht
  refine ⟨cbB :: txB, fun ys => ⟨fun h => blockOf_unique h hblock, fun h => h ▸ hblock⟩, fun W hS => ?_⟩
  obtain ⟨k1, k2, k3⟩ := reads H signers hS hcl hfr hct
  rw [List.map_cons, List.nodup_cons] at hnd
  obtain ⟨W', s1, s2⟩ := block_txs H verify signers cb (H.sha256 (H.sha256 cbB)) (H.sha256_length _) (by omega) (by rw [e1, List.map_singleton, e2]) txB hfr
    (fun b hb e => hnd.1 (List.mem_map.mpr ⟨b, hb, e.symm⟩)) k3 hacc
  exact ⟨W', by simp only [List.map_cons, walletRun, k2, Res.ok_bind, s1]; rfl, s2⟩

/-- C120 (f), the chain: a wallet that has seen the transactions of all the blocks a node accepted, in the order of the blocks, sees its part of the node's ledger, and its balance is what its keys have there. -/
theorem C120_chain (H : HashFns) (verify : Bytes → Bytes → Bytes → Bool) (signers : List InternalSigner) : ∀ (bs : List (Tip × Bytes)) (L L' : Ledger), NodeAcceptsChain H verify L bs L' →
    ∃ blocks, (∀ ys, List.Forall₂ (fun b txs => BlockOf b.2 txs) bs ys ↔ ys = blocks) ∧ ∀ W, Sees (keyHashes H signers) W L →
      ∃ W', walletRun H signers W (blocks.flatten.map .seen) = .ok (W', blocks.flatten) ∧ Sees (keyHashes H signers) W' L' ∧ Owns (keyHashes H signers) L' (balance W')
  | [], L, L', h => ⟨[], by simp, fun W hS => ⟨W, rfl, by rw [show L' = L from h]; exact ⟨hS, (C120_owns _ W L hS).1⟩⟩⟩
  | (tip, b) :: bs, L, L', h => by
    obtain ⟨L1, h1, h2⟩ := h
    obtain ⟨txs, b1, b2⟩ := C120_block H verify signers tip L L1 b h1
    obtain ⟨blocks, c1, c2⟩ := C120_chain H verify signers bs L1 L' h2
    refine ⟨txs :: blocks, fun ys => ⟨fun h => ?_, fun h => ?_⟩, fun W hS => ?_⟩
    · cases h with
      | cons g1 g2 => rw [(b1 _).mp g1, (c1 _).mp g2]
    · rw [h]; exact .cons ((b1 _).mpr rfl) ((c1 _).mpr rfl)
    · obtain ⟨W1, d1, d2⟩ := b2 W hS
      obtain ⟨W', e1, e2⟩ := c2 W1 d2
      exact ⟨W', by rw [List.flatten_cons, List.map_append]; exact walletRun_append H signers _ _ W W1 W' _ _ d1 e1, e2⟩

/-! ## Concrete cases -/

theorem exSees : Sees (keyHashes toyH [toySigner]) [exCoin] exLedger := by
  refine ⟨⟨by simp, ?_⟩, ?_⟩
  · intro w hw
    rw [List.mem_singleton.mp hw]
    exact ⟨by unfold IsTxId; decide +kernel, _, List.mem_map.mpr ⟨toySigner, by simp, rfl⟩, (isHexString_iff _).mpr (isHex_encode _), hexDecodeIgnore_encode _, by simp [exLedger, exCoin]⟩
  · intro key c h _
    unfold exLedger at h
    split_ifs at h with e
    exact ⟨exCoin, by simp, e.symm⟩

/-- A wallet of ninety. -/
example : Owns (keyHashes toyH [toySigner]) exLedger 90 := (C120_owns _ _ _ exSees).1

/-- Another key. -/
def exBob : InternalSigner := { toySigner with pubKey := List.replicate 33 3 }

/-- Twenty for Bob, sixty back, ten for the miner. -/
def exGift : Payment := ⟨[exCoin], [((Address.NewFromPublicKey toyH exBob.pubKey true).AddressString, 20), ((Address.NewFromPublicKey toyH toySigner.pubKey true).AddressString, 60)]⟩

/-- Paying it: the ninety become sixty, Bob has twenty. -/
example : ∃ A' B' b L', walletStep toyH [toySigner] [exCoin] (.pay exGift) = .ok (A', b) ∧ NodeAccepts toyH toyVerify exLedger b L' ∧ walletStep toyH [exBob] [] (.seen b) = .ok (B', b) ∧
    Owns (keyHashes toyH [toySigner]) L' 60 ∧ Owns (keyHashes toyH [exBob]) L' 20 := by
  have hA : Affordable [exCoin] exGift := ⟨⟨by simp [exGift], by simp [exGift], by simp [exGift]⟩, ⟨by simp [exGift], by decide +kernel⟩, by decide +kernel, by decide +kernel, by decide +kernel⟩
  obtain ⟨A', b, s1, s2, s3, s4⟩ := C120_pay toyH toyVerify [toySigner] (by simpa using toySigner_good) exLedger [exCoin] exSees exGift hA
  have hf : (match walletStep toyH [toySigner] [exCoin] (.pay exGift) with
      | .ok r => decide (r.2.length ≤ maxTxBytes ∧ toyH.sha256 (toyH.sha256 r.2) ≠ List.replicate 32 17)
      | _ => false) = true := by decide +kernel
  rw [s1] at hf
  dsimp only at hf
  rw [decide_eq_true_eq] at hf
  have hk : exCoin.key = List.replicate 32 17 ++ leBytes 4 1 := by decide +kernel
  obtain ⟨L', hL⟩ := s3 hf.1 (by
    intro n _
    unfold exLedger
    rw [if_neg]
    rw [hk]
    intro e
    exact hf.2 (List.append_inj_left e (by simp [toyH.sha256_length])))
  have hd : ∀ h ∈ keyHashes toyH [toySigner], h ∉ keyHashes toyH [exBob] := by decide +kernel
  have hB : Sees (keyHashes toyH [exBob]) [] exLedger := by
    rw [C120_start]
    intro key c h hp
    unfold exLedger at h
    split_ifs at h
    injection h with h
    rw [← h] at hp
    obtain ⟨h', hm', e⟩ := List.mem_map.mp hp
    exact hd _ (List.mem_map.mpr ⟨toySigner, by simp, rfl⟩) (p2pkh_inj e ▸ hm')
  obtain ⟨B', t1, t2, t3, t4, fee, t5, t6⟩ := C120_transfer toyH toyVerify [toySigner] [exBob] (by simpa using toySigner_good) exLedger L' [exCoin] [] exSees hB hd
    _ _ (toyH.ripemd160 (toyH.sha256 exBob.pubKey)) (toyH.ripemd160 (toyH.sha256 toySigner.pubKey)) ⟨by decide +kernel, List.mem_map.mpr ⟨exBob, by simp, rfl⟩⟩
    ⟨by decide +kernel, List.mem_map.mpr ⟨toySigner, by simp, rfl⟩⟩ [exCoin] 20 60 hA A' b s1 hL
  refine ⟨A', B', b, L', s1, hL, t1, ?_, ?_⟩
  · have h1 := (C120_owns _ A' L' t2).1
    have e1 : balance [exCoin] = 90 := by decide +kernel
    have e2 : (20 : UInt64).toNat = 20 ∧ (60 : UInt64).toNat = 60 := by decide
    rw [show balance A' = 60 by omega] at h1
    exact h1
  · have h1 := (C120_owns _ B' L' t3).1
    have e1 : balance ([] : List WalletCoin) = 0 := rfl
    have e2 : (20 : UInt64).toNat = 20 := by decide
    rw [show balance B' = 20 by omega] at h1
    exact h1

/-- A wallet reads the block of the example for C116, in the order of the block, and finds its coins. -/
example : ∃ L' txs W', BlockOf exBlock txs ∧ walletRun toyH [toySigner] [exCoin] (txs.map .seen) = .ok (W', txs) ∧ Owns (keyHashes toyH [toySigner]) L' (balance W') ∧
    NodeAcceptsChain toyH toyVerify exLedger [(exTip, exBlock)] L' := by
  obtain ⟨L', h⟩ := exBlock_accepted
  have hc : NodeAcceptsChain toyH toyVerify exLedger [(exTip, exBlock)] L' := ⟨L', h, rfl⟩
  obtain ⟨blocks, h1, h2⟩ := C120_chain toyH toyVerify [toySigner] _ exLedger L' hc
  have hb := (h1 blocks).mpr rfl
  cases hb with
  | cons g1 g2 =>
    cases g2
    obtain ⟨W', k1, k2, k3⟩ := h2 [exCoin] exSees
    exact ⟨L', _, W', g1, by simpa using k1, k3, hc⟩

end Verif.Props
