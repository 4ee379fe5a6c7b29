import Verif.Spec.Chain
import Verif.Props.Ledger
import Verif.Props.Mining
import Verif.Props.Bip34
import Verif.Props.Target
/-!
# C116: a block assembled with the library, against a node
-/
namespace Verif.Props
open Verif Spec Transaction

/-- The block a miner sends: the header built with the library, the number of transactions, the coinbase and the other transactions. `bits` is the hex text as block templates and
`ExpandTargetFromAsInt` have it, `old` the first entry of the list the Merkle branches were computed for. -/
def minedBlock (H : HashFns) (version : UInt32) (prev time bits nonce old coinbase : Bytes) (txs : List Transaction) : Bytes :=
  minedHeader H version prev time (ReverseBytes (hexDecodeIgnore bits)) nonce old coinbase txs ++ VarInt (UInt64.ofNat (txs.length + 1)) ++ coinbase ++ txs.flatMap Transaction.ToBytes

theorem heightOK_iff (n : Nat) (height : UInt32) (text e1 e2 : Bytes) :
    HeightOK n (coinbaseScript height text e1 e2) ↔ n = height.toNat % 2 ^ 24 ∧ 2 ^ 15 ≤ n ∧ n < 2 ^ 23 := by
  have hs : coinbaseScript height text e1 e2 = (0x03 :: leBytes 3 height.toNat) ++ (text.take 84 ++ (hexDecodeIgnore e1 ++ hexDecodeIgnore e2)) := by
    simp [coinbaseScript]
  constructor
  · rintro ⟨p, hp, hpre⟩
    obtain ⟨r, hr⟩ := hpre
    rcases hp with ⟨_, e⟩ | ⟨h1, h2, e⟩ | ⟨h16, b, ⟨hv, hmin⟩, hl, e⟩
    · rw [e, hs] at hr; simp at hr
    · rw [e, hs] at hr
      simp only [List.cons_append, List.nil_append, List.cons.injEq] at hr
      have := congrArg UInt8.toNat hr.1
      rw [UInt8.toNat_ofNat', Nat.mod_eq_of_lt (by omega)] at this
      simp at this; omega
    · rw [e, hs] at hr
      simp only [List.cons_append, List.cons.injEq] at hr
      obtain ⟨hl3, hr⟩ := hr
      have h3 : b.length = 3 := by
        have := congrArg UInt8.toNat hl3
        rw [UInt8.toNat_ofNat', Nat.mod_eq_of_lt (by omega)] at this
        simpa using this
      have hb : b = leBytes 3 height.toNat := List.append_inj_left hr (by simp [h3])
      obtain ⟨_, hle, hlt⟩ := scriptNumber_pos (by omega) hv
      rw [h3] at hlt
      rw [hb, leNat_leBytes] at hle
      refine ⟨by rw [← hle]; norm_num, ?_, by norm_num at hlt ⊢; omega⟩
      by_contra hc
      have := hmin (leBytes 2 n) (scriptNumber_leBytes (by omega) (by norm_num at hc ⊢; omega))
      simp [h3] at this
  · rintro ⟨hn, hlo, hhi⟩
    have hb : leBytes 3 height.toNat = leBytes 3 n := by
      have e := leBytes_leNat (leBytes 3 height.toNat)
      rw [leNat_leBytes, leBytes_length, show (256 : Nat) ^ 3 = 2 ^ 24 by norm_num, ← hn] at e
      exact e.symm
    refine ⟨0x03 :: leBytes 3 n, Or.inr (Or.inr ⟨by omega, leBytes 3 n, ⟨scriptNumber_leBytes (by omega) (by norm_num at hhi ⊢; omega), ?_⟩, by simp, by simp⟩), ?_⟩
    · intro b' hb'
      obtain ⟨_, _, h3⟩ := scriptNumber_pos (by omega) hb'
      rw [leBytes_length]
      by_contra hc
      have : 256 ^ (b'.length - 1) ≤ 256 ^ 1 := Nat.pow_le_pow_right (by decide) (by omega)
      norm_num at hlo; omega
    · rw [hs, hb]; exact List.prefix_append _ _

theorem isTx_unique {t t' : Transaction} {b : Bytes} (h : IsTx MinCompactSize t b) (h' : IsTx MinCompactSize t' b) : t = t' :=
  (isTx_prefix_free t t' b b [] [] (isTx_mono h) (isTx_mono h') rfl).1

/-- What a node has after some transactions, and the fees, are determined. -/
theorem acceptsFees_unique {H : HashFns} {verify : Bytes → Bytes → Bytes → Bool} : ∀ (bs : List Bytes) {L L1 L2 : Ledger} {f1 f2 : Nat},
    AcceptsFees H verify L bs L1 f1 → AcceptsFees H verify L bs L2 f2 → L1 = L2 ∧ f1 = f2
  | [], _, _, _, _, _, h1, h2 => ⟨h1.1.trans h2.1.symm, h1.2.trans h2.2.symm⟩
  | b :: bs, L, L1, L2, f1, f2, h1, h2 => by
    obtain ⟨M, tx, r, ⟨-, -, tx1, a1, -, a2⟩, a3, a4, rfl⟩ := h1
    obtain ⟨M', tx', r', ⟨-, -, tx1', b1, -, b2⟩, b3, b4, rfl⟩ := h2
    obtain rfl := isTx_unique a3 b3
    obtain rfl := isTx_unique a1 a3
    obtain rfl := isTx_unique b1 a1
    subst a2; subst b2
    obtain ⟨rfl, rfl⟩ := acceptsFees_unique bs a4 b4
    exact ⟨rfl, rfl⟩

/-- Accepted transactions are in wire form. -/
theorem acceptsFees_isSeq {H : HashFns} {verify : Bytes → Bytes → Bytes → Bool} : ∀ (bs : List Bytes) {L L1 : Ledger} {f : Nat},
    AcceptsFees H verify L bs L1 f → ∃ ts : List Transaction, List.Forall₂ (IsTx CompactSize) ts bs
  | [], _, _, _, _ => ⟨[], .nil⟩
  | b :: bs, L, L1, f, h => by
    obtain ⟨M, tx, r, -, a3, a4, rfl⟩ := h
    obtain ⟨ts, h⟩ := acceptsFees_isSeq bs a4
    exact ⟨tx :: ts, .cons (isTx_mono a3) h⟩

theorem forall2_flatten_inj : ∀ {ts ts' : List Transaction} {bs bs' : List Bytes}, List.Forall₂ (IsTx CompactSize) ts bs → List.Forall₂ (IsTx CompactSize) ts' bs' →
    bs.length = bs'.length → bs.flatten = bs'.flatten → bs = bs'
  | [], _, [], bs', _, _, hl, _ => (List.length_eq_zero_iff.mp hl.symm).symm
  | t :: ts, [], b :: bs, bs', _, h2, hl, _ => by cases h2; simp at hl
  | t :: ts, t' :: ts', b :: bs, b' :: bs', .cons h1 r1, .cons h2 r2, hl, he => by
    rw [List.flatten_cons, List.flatten_cons] at he
    obtain ⟨-, rfl, he'⟩ := isTx_prefix_free _ _ _ _ _ _ h1 h2 he
    rw [forall2_flatten_inj r1 r2 (by simpa using hl) he']

/-- The Merkle root in the header is that of the transactions of the block. -/
theorem mined_root (H : HashFns) (old coinbase : Bytes) (txs : List Transaction) :
    IsRoot (fun x => H.sha256 (H.sha256 x)) ((coinbase :: txs.map Transaction.ToBytes).map fun x => H.sha256 (H.sha256 x))
      (BuildMerkleRootFromCoinbase H (Sha256d H coinbase) (GetMerkleBranches H (old :: txs.map (GetTxID H)))) ∧
    (BuildMerkleRootFromCoinbase H (Sha256d H coinbase) (GetMerkleBranches H (old :: txs.map (GetTxID H)))).length = 32 := by
  have hroot := C51_root_any_coinbase H old (txs.map (GetTxID H)) (by
    intro t hm; obtain ⟨x, -, rfl⟩ := List.mem_map.mp hm; exact (isTxId_iff.mp (txid_isTxId H x)).1) (Sha256d H coinbase)
  have hmap : (Sha256d H coinbase) :: (txs.map (GetTxID H)).map internal = (coinbase :: txs.map Transaction.ToBytes).map fun x => H.sha256 (H.sha256 x) := by
    simp only [List.map_cons, List.map_map]
    congr 1
    apply List.map_congr_left
    intro t _
    exact internal_txid H t
  rw [hmap] at hroot
  exact ⟨hroot, root_length (d := dsha H) (fun b => H.sha256_length _) hroot (by
    intro x hx; obtain ⟨t, -, rfl⟩ := List.mem_map.mp hx; exact H.sha256_length _)⟩

/-- The coinbase the library builds is a valid one exactly for the heights of C111 and amounts up to the reward. -/
theorem coinbase_valid_iff (n most : Nat) (height : UInt32) (value : UInt64) (wc text lock minerID e1 e2 : Bytes) (hn : (hexDecodeIgnore e1).length + (hexDecodeIgnore e2).length = 12) :
    ValidCoinbase n most (coinbaseTx height value wc text lock minerID e1 e2) ↔
      (n = height.toNat % 2 ^ 24 ∧ 2 ^ 15 ≤ n ∧ n < 2 ^ 23) ∧ value.toNat ≤ most ∧ value.toNat ≤ maxMoney := by
  have hv : valueOut (coinbaseTx height value wc text lock minerID e1 e2) = value.toNat := by
    simp only [valueOut, coinbaseTx, coinbaseOutputs]
    split_ifs <;> simp
  have hsl : (coinbaseScript height text e1 e2).length = 4 + min 84 text.length + 12 := by
    simp only [coinbaseScript, List.length_cons, List.length_append, leBytes_length, List.length_take]; omega
  constructor
  · rintro ⟨⟨i, s, h1, -, h2, -, -, h3⟩, -, h4, h5, -⟩
    rw [hv] at h4 h5
    simp only [coinbaseTx, List.cons.injEq, and_true] at h1
    subst h1
    simp only [coinbaseInput, Option.some.injEq] at h2
    subst h2
    exact ⟨(heightOK_iff _ _ _ _ _).mp h3, h5, h4⟩
  · rintro ⟨h1, h2, h3⟩
    refine ⟨⟨_, _, rfl, ?_, rfl, by omega, by omega, (heightOK_iff _ _ _ _ _).mpr h1⟩, by simp [coinbaseTx, coinbaseOutputs], by rw [hv]; exact h3, by rw [hv]; exact h2, .inl rfl⟩
    simp only [coinbaseInput, outpoint]
    decide +kernel

/-- Its length and wire form. -/
theorem coinbase_wire (height : UInt32) (value : UInt64) (wc text wallet lock minerID e1 e2 : Bytes) (hw : NewP2PKHFromAddress wallet = .ok lock)
    (hwc : IsHex wc) (hn : (hexDecodeIgnore e1).length + (hexDecodeIgnore e2).length = 12) (hsz : wc.length + minerID.length ≤ 999999000) :
    (coinbaseTx height value wc text lock minerID e1 e2).ToBytes.length ≤ maxTxBytes ∧
    IsTx MinCompactSize (coinbaseTx height value wc text lock minerID e1 e2) (coinbaseTx height value wc text lock minerID e1 e2).ToBytes := by
  have hlock : lock.length = 25 := by
    by_cases ha : IsAddressLike wallet
    · rw [(p2pkhAddress_eq wallet).1 ha, Res.ok.injEq] at hw
      rw [← hw]
      have : (base58Decode wallet).length = 25 := ha.1
      simp [this]
    · obtain ⟨m, hm⟩ := (p2pkhAddress_eq wallet).2 ha
      rw [hm] at hw; cases hw
  have hwl := hexDecodeIgnore_length hwc
  have hsl : (coinbaseScript height text e1 e2).length = 4 + min 84 text.length + 12 := by
    simp only [coinbaseScript, List.length_cons, List.length_append, leBytes_length, List.length_take]; omega
  have hbl : ((coinbaseOutputs value lock wc minerID).flatMap Output.ToBytes).length ≤ 100 + wc.length + minerID.length := by
    have hv := fun n => VarInt_length_le n
    unfold coinbaseOutputs
    split_ifs <;> simp only [List.append_nil, List.flatMap_append, List.flatMap_cons, List.flatMap_nil, List.length_append, Output.ToBytes, putUint64_eq, leBytes_length]
    all_goals
      have h1 := hv (UInt64.ofNat lock.length)
      have h2 := hv (UInt64.ofNat (hexDecodeIgnore wc).length)
      have h3 := hv (UInt64.ofNat minerID.length)
      omega
  have hlen : (coinbaseTx height value wc text lock minerID e1 e2).ToBytes.length ≤ maxTxBytes := by
    rw [tx_toBytes_eq]
    simp only [coinbaseTx, List.flatMap_cons, List.flatMap_nil, List.append_nil, List.length_append, putUint32_length, input_toBytes_eq, coinbaseInput, Option.getD_some, hsl]
    have h0 : (hexDecodeIgnore (List.replicate 64 48)).reverse.length = 32 := by decide +kernel
    rw [h0]
    have h1 := VarInt_length_le (UInt64.ofNat (4 + min 84 text.length + 12))
    have h2 := VarInt_length_le (UInt64.ofNat (coinbaseOutputs value lock wc minerID).length)
    have h3 := VarInt_length_le (UInt64.ofNat [coinbaseInput height text e1 e2].length)
    simp only [coinbaseInput] at h3
    unfold maxTxBytes
    omega
  refine ⟨hlen, ?_⟩
  have hmx : maxTxBytes < 2 ^ 62 := by decide
  have := tx_toBytes_isTx (coinbaseTx height value wc text lock minerID e1 e2) (by
    intro i hi
    simp only [coinbaseTx, List.mem_singleton] at hi
    subst hi
    simp only [coinbaseInput]
    decide +kernel) (by omega)
  have e : wireTx (coinbaseTx height value wc text lock minerID e1 e2) = coinbaseTx height value wc text lock minerID e1 e2 := by
    simp only [wireTx, coinbaseTx, List.map_cons, List.map_nil, wireInput, coinbaseInput, Option.getD_some]
    congr 3
  rwa [e] at this

/-- C116: a block assembled with the library (coinbase parts, extra nonces of 12 bytes, Merkle branches, header) from transactions the node accepts one after the other is
accepted, as the next block, when and only when: it is not too large; version, previous hash, time and bits are what the chain demands; the header's hash is at most the target that
`ExpandTargetFromAsInt` gives, a positive number below 2^256; the height is the next one, modulo 2^24, and is from 32768 to 8388607; the coinbase takes no more than
the subsidy and the fees and no more than there can be; all hashes are different and the coinbase's is new. Afterwards the node has what it has after the transactions and the
outputs of the coinbase. -/
theorem C116_block (H : HashFns) (verify : Bytes → Bytes → Bytes → Bool) (tip : Tip) (L L1 : Ledger) (fees : Nat) (txs : List Transaction)
    (hm : AcceptsFees H verify L (txs.map Transaction.ToBytes) L1 fees) (hcount : txs.length < 2 ^ 32)
    (height : UInt32) (value : UInt64) (wc text wallet minerID e1 e2 lock : Bytes) (hw : NewP2PKHFromAddress wallet = .ok lock)
    (hwc : IsHex wc) (hn : (hexDecodeIgnore e1).length + (hexDecodeIgnore e2).length = 12) (hsz : wc.length + minerID.length ≤ 999999000)
    (version : UInt32) (prev time bits nonce old : Bytes) (hp : IsTxId prev) (ht : time.length = 4) (hb : IsHex bits ∧ bits.length = 8) (hnc : nonce.length = 4) :
    ∃ c1 c2 cb, GetCoinbaseParts height value wc text wallet minerID = .ok (c1, c2) ∧ Transaction.NewFromBytes (Slice.exact (BuildCoinbase c1 c2 e1 e2)) = .ok cb ∧
      ∀ (coinbase header block : Bytes), coinbase = BuildCoinbase c1 c2 e1 e2 →
        header = minedHeader H version prev time (ReverseBytes (hexDecodeIgnore bits)) nonce old coinbase txs → block = minedBlock H version prev time bits nonce old coinbase txs →
        ∀ L', NodeAcceptsBlock H verify tip L block L' ↔
          block.length ≤ tip.maxBytes ∧ 4 ≤ version.toNat ∧ version.toNat < 2 ^ 31 ∧ (hexDecodeIgnore prev).reverse = tip.hash ∧ tip.earliest ≤ leNat time ∧ leNat time ≤ tip.latest ∧
          (hexDecodeIgnore bits).reverse = tip.bits ∧
          (∃ t, ExpandTargetFromAsInt bits = .ok t ∧ 0 < t ∧ t < 2 ^ 256 ∧ (leNat (H.sha256 (H.sha256 header)) : Int) ≤ t) ∧
          tip.height = height.toNat % 2 ^ 24 ∧ 2 ^ 15 ≤ tip.height ∧ tip.height < 2 ^ 23 ∧
          value.toNat ≤ tip.subsidy + fees ∧ value.toNat ≤ maxMoney ∧
          ((coinbase :: txs.map Transaction.ToBytes).map fun x => H.sha256 (H.sha256 x)).Nodup ∧
          (∀ n < 2 ^ 32, L (H.sha256 (H.sha256 coinbase) ++ leBytes 4 n) = none) ∧
          L' = L1.after (H.sha256 (H.sha256 coinbase)) cb := by
  obtain ⟨c1, c2, h1, h2, -, h4⟩ := C59_coinbase height value wc text wallet minerID e1 e2 lock [] hw hwc hn (by simp; omega)
  refine ⟨c1, c2, _, h1, h2, ?_⟩
  rintro coinbase header block rfl rfl rfl L'
  generalize hcb : BuildCoinbase c1 c2 e1 e2 = coinbase at *
  obtain ⟨hx, hl⟩ := isTxId_iff.mp hp
  have hpl : (hexDecodeIgnore prev).reverse.length = 32 := by
    have := hexDecodeIgnore_length hx
    rw [List.length_reverse]; omega
  obtain ⟨b0, b1, b2, b3, hbits⟩ : ∃ e x y z, hexDecodeIgnore bits = [e, x, y, z] := by
    have := hexDecodeIgnore_length hb.1
    rw [hb.2] at this
    match hd : hexDecodeIgnore bits, this with
    | [e, x, y, z], _ => exact ⟨e, x, y, z, rfl⟩
  have htgt := C56_target bits b0 b1 b2 b3 [] hb.1 hbits
  obtain ⟨hroot, hrl⟩ := mined_root H old coinbase txs
  generalize hR : BuildMerkleRootFromCoinbase H (Sha256d H coinbase) (GetMerkleBranches H (old :: txs.map (GetTxID H))) = R at hroot hrl
  have hhead : minedHeader H version prev time (ReverseBytes (hexDecodeIgnore bits)) nonce old coinbase txs =
      leBytes 4 version.toNat ++ (hexDecodeIgnore prev).reverse ++ R ++ time ++ (hexDecodeIgnore bits).reverse ++ nonce := by
    simp [minedHeader, hR, BuildBlockHeader, putUint32_eq, ReverseBytes_eq]
  have hbl : (hexDecodeIgnore bits).reverse.length = 4 := by rw [hbits]; rfl
  have hvar : MinCompactSize (txs.length + 1) (VarInt (UInt64.ofNat (txs.length + 1))) := minCompactSize_iff.mpr ⟨by omega, rfl⟩
  obtain ⟨hcl, hct⟩ := coinbase_wire height value wc text wallet lock minerID e1 e2 hw hwc hn hsz
  rw [h4] at hcl hct
  have hval := fun n most => coinbase_valid_iff n most height value wc text lock minerID e1 e2 hn
  generalize coinbaseTx height value wc text lock minerID e1 e2 = cb at *
  have hpow : ∀ hash, ProofOfWork (hexDecodeIgnore bits).reverse hash ↔ ∃ t, ExpandTargetFromAsInt bits = .ok t ∧ 0 < t ∧ t < 2 ^ 256 ∧ (leNat hash : Int) ≤ t := by
    intro hash
    rw [htgt, hbits]
    constructor
    · rintro ⟨e, x, y, z, he, h1, h2, h3⟩
      simp only [List.reverse_cons, List.reverse_nil, List.nil_append, List.cons_append, List.cons.injEq, and_true] at he
      obtain ⟨rfl, rfl, rfl, rfl⟩ := he
      exact ⟨_, rfl, h1, h2, h3⟩
    · rintro ⟨t, h0, h1, h2, h3⟩
      cases h0
      exact ⟨_, _, _, _, rfl, h1, h2, h3⟩
  constructor
  · rintro ⟨v, p, r, tm, bt, nc, hd, cnt, cbB, txB, cb', L1', fees', heq, hlen, ⟨a1, a2, a3, a4, a5, rfl⟩, v1, v2, rfl, t1, t2, rfl, pw, hmc, -, hnd, hacc, -, hcb', hvc, hfr, rfl⟩
    obtain ⟨ts, hts⟩ := acceptsFees_isSeq _ hm
    obtain ⟨ts', hts'⟩ := acceptsFees_isSeq _ hacc
    have heq0 := heq
    unfold minedBlock at heq
    rw [hhead] at heq
    simp only [List.append_assoc] at heq
    obtain ⟨hv, heq⟩ := _root_.Verif.leBytes4_inj heq
    obtain ⟨hpv, heq⟩ := List.append_inj heq (by rw [hpl, a1])
    obtain ⟨hrv, heq⟩ := List.append_inj heq (by rw [hrl, a2])
    obtain ⟨htv, heq⟩ := List.append_inj heq (by rw [ht, a3])
    obtain ⟨hbv, heq⟩ := List.append_inj heq (by rw [hbl, a4])
    obtain ⟨hnv, heq⟩ := List.append_inj heq (by rw [hnc, a5])
    obtain ⟨hk, -, heq⟩ := compactSize_prefix_free hvar.1 hmc.1 heq
    obtain ⟨hce, hbe, heq⟩ := isTx_prefix_free _ _ _ _ _ _ (isTx_mono hct) (isTx_mono hcb') heq
    have hbe2 : txs.map Transaction.ToBytes = txB := forall2_flatten_inj hts hts' (by simpa using hk) (by rw [← heq, List.flatMap_def])
    subst hbe2 hce hbe
    subst hv hrv htv hnv
    obtain ⟨rfl, rfl⟩ := acceptsFees_unique _ hm hacc
    obtain ⟨g1, g2, g3⟩ := (hval _ _).mp hvc
    refine ⟨hlen, v1, v2, hpv, t1, t2, hbv, ?_, g1.1, g1.2.1, g1.2.2, g2, g3, hnd, hfr, rfl⟩
    rw [← hpow, hhead, hbv, hpv]
    exact pw
  · rintro ⟨k1, k2, k3, k4, k5, k6, k7, k8, k9, k10, k11, k12, k13, k14, k15, rfl⟩
    refine ⟨version, _, R, time, _, nonce, _, VarInt (UInt64.ofNat (txs.length + 1)), coinbase, txs.map Transaction.ToBytes, cb, L1, fees, ?_, k1, ⟨hpl, hrl, ht, hbl, hnc, hhead⟩, k2, k3, k4, k5, k6, k7, ?_,
      by simpa using hvar, hroot, k14, hm, hcl, hct, (hval _ _).mpr ⟨⟨k9, k10, k11⟩, k12, k13⟩, k15, rfl⟩
    · simp [minedBlock, List.flatMap_def]
    · exact (hpow _).mpr k8

/-- A wallet that sees transactions the node accepts, one after the other. -/
theorem wallet_sees (H : HashFns) (verify : Bytes → Bytes → Bytes → Bool) (signers : List InternalSigner) : ∀ (bs : List Bytes) {L L1 : Ledger} {f : Nat} {W : List WalletCoin},
    Backed (keyHashes H signers) W L → AcceptsFees H verify L bs L1 f → ∃ W', walletRun H signers W (bs.map .seen) = .ok (W', bs) ∧ Backed (keyHashes H signers) W' L1
  | [], L, L1, f, W, hB, h => ⟨W, rfl, by rw [h.1]; exact hB⟩
  | b :: bs, L, L1, f, W, hB, h => by
    obtain ⟨M, tx, r, a1, -, a4, rfl⟩ := h
    obtain ⟨W1, s1, k1⟩ := wallet_seen H verify signers hB a1
    obtain ⟨W2, s2, k2⟩ := wallet_sees H verify signers bs k1 a4
    exact ⟨W2, by simp only [List.map_cons, walletRun, s1, Res.ok_bind, s2]; rfl, k2⟩

theorem walletRun_append (H : HashFns) (signers : List InternalSigner) : ∀ (es fs : List WalletEvent) (W W1 W2 : List WalletCoin) (bs cs : List Bytes),
    walletRun H signers W es = .ok (W1, bs) → walletRun H signers W1 fs = .ok (W2, cs) → walletRun H signers W (es ++ fs) = .ok (W2, bs ++ cs)
  | [], fs, W, W1, W2, bs, cs, h1, h2 => by
    simp only [walletRun] at h1
    cases h1
    exact h2
  | e :: es, fs, W, W1, W2, bs, cs, h1, h2 => by
    simp only [walletRun] at h1
    obtain ⟨⟨Wa, b⟩, e1, h1⟩ := Res.bind_eq_ok.mp h1
    obtain ⟨⟨Wb, bs'⟩, e2, h1⟩ := Res.bind_eq_ok.mp h1
    cases h1
    have := walletRun_append H signers es fs Wa _ W2 bs' cs e2 h2
    simp only [List.cons_append, walletRun, e1, Res.ok_bind, this]
    rfl

theorem acceptsFees_only {H : HashFns} {verify : Bytes → Bytes → Bytes → Bool} {k : Bytes} : ∀ (bs : List Bytes) {L L1 : Ledger} {f : Nat}, AcceptsFees H verify L bs L1 f →
    (∀ b ∈ bs, ∀ n < 2 ^ 32, k ≠ H.sha256 (H.sha256 b) ++ leBytes 4 n) → L k = none → L1 k = none
  | [], L, L1, f, h, _, hk => by rw [h.1]; exact hk
  | b :: bs, L, L1, f, h, hne, hk => by
    obtain ⟨M, tx, r, a1, -, a4, rfl⟩ := h
    exact acceptsFees_only bs a4 (fun b hb => hne b (by simp [hb])) (accepts_only a1 (hne b (by simp)) hk)

/-- C116, the miner's wallet: when the node has accepted the block, a wallet that sees its transactions and then its coinbase has its coins in the node's ledger again; if the coinbase pays to one
of its keys, the payment is among them. (By C115 they can be spent; a node makes coinbase outputs wait.) -/
theorem C116_wallet (H : HashFns) (verify : Bytes → Bytes → Bytes → Bool) (tip : Tip) (L L' L1 : Ledger) (fees : Nat) (txs : List Transaction)
    (hm : AcceptsFees H verify L (txs.map Transaction.ToBytes) L1 fees) (hcount : txs.length < 2 ^ 32)
    (height : UInt32) (value : UInt64) (wc text wallet minerID e1 e2 lock c1 c2 : Bytes) (hw : NewP2PKHFromAddress wallet = .ok lock)
    (hwc : IsHex wc) (hn : (hexDecodeIgnore e1).length + (hexDecodeIgnore e2).length = 12) (hsz : wc.length + minerID.length ≤ 999999000)
    (version : UInt32) (prev time bits nonce old : Bytes) (hp : IsTxId prev) (ht : time.length = 4) (hb : IsHex bits ∧ bits.length = 8) (hnc : nonce.length = 4)
    (hc : GetCoinbaseParts height value wc text wallet minerID = .ok (c1, c2))
    (hblock : NodeAcceptsBlock H verify tip L (minedBlock H version prev time bits nonce old (BuildCoinbase c1 c2 e1 e2) txs) L')
    (signers : List InternalSigner) (W : List WalletCoin) (hB : Backed (keyHashes H signers) W L) :
    ∃ W', walletRun H signers W (txs.map (fun t => .seen t.ToBytes) ++ [.seen (BuildCoinbase c1 c2 e1 e2)]) = .ok (W', txs.map Transaction.ToBytes ++ [BuildCoinbase c1 c2 e1 e2]) ∧
      Backed (keyHashes H signers) W' L' ∧
      ∀ is ∈ signers, lock = p2pkh (H.ripemd160 (H.sha256 is.pubKey)) → ∃ w ∈ W', w.sats = value ∧ w.key = H.sha256 (H.sha256 (BuildCoinbase c1 c2 e1 e2)) ++ leBytes 4 0 := by
  obtain ⟨c1', c2', cb, h1, h2, h3⟩ := C116_block H verify tip L L1 fees txs hm hcount height value wc text wallet minerID e1 e2 lock hw hwc hn hsz version prev time bits nonce old hp ht hb hnc
  rw [hc] at h1
  cases h1
  obtain ⟨d1, d2, h1, h2', -, h4⟩ := C59_coinbase height value wc text wallet minerID e1 e2 lock [] hw hwc hn (by simp; omega)
  rw [hc] at h1
  cases h1
  have hcb : cb = coinbaseTx height value wc text lock minerID e1 e2 := by
    have := h2.symm.trans h2'
    cases this; rfl
  obtain ⟨-, -, -, -, -, -, -, -, -, -, -, -, -, hnd, hfr, rfl⟩ := (h3 _ _ _ rfl rfl rfl L').mp hblock
  obtain ⟨W1, s1, k1⟩ := wallet_sees H verify signers _ hB hm
  have hfr1 : ∀ n < 2 ^ 32, L1 (H.sha256 (H.sha256 (BuildCoinbase c1 c2 e1 e2)) ++ leBytes 4 n) = none := by
    intro n hlt
    refine acceptsFees_only _ hm ?_ (hfr n hlt)
    intro b hb m _ e
    have e' := List.append_inj_left e (by simp [H.sha256_length])
    rw [List.map_cons, List.nodup_cons] at hnd
    exact hnd.1 (List.mem_map.mpr ⟨b, hb, e'.symm⟩)
  have hol : cb.Outputs.length ≤ 3 := by
    rw [hcb]; simp only [coinbaseTx, coinbaseOutputs]; split_ifs <;> simp
  have hB2 := backed_after H k1 cb (by omega) (by rw [hcb, h4]; exact hfr1) (fun w => decide (w.key ∉ cb.Inputs.map outpoint)) (by intro w _ h; simpa using h)
  rw [show cb.ToBytes = BuildCoinbase c1 c2 e1 e2 by rw [hcb, h4]] at hB2
  refine ⟨_, ?_, hB2, ?_⟩
  · refine walletRun_append H signers _ _ W W1 _ _ _ (by rw [List.map_map] at s1; exact s1) ?_
    simp only [walletRun, walletStep, h2, Res.ok_bind]
    rfl
  · intro is his hl
    refine ⟨⟨cb.GetTxID H, UInt32.ofNat 0, hexEncode lock, value⟩, List.mem_append_right _ ?_, rfl, ?_⟩
    · unfold received
      refine List.mem_map.mpr ⟨(⟨value, lock⟩, 0), List.mem_filter.mpr ⟨?_, ?_⟩, rfl⟩
      · rw [hcb]; simp [coinbaseTx, coinbaseOutputs]
      · simp only [decide_eq_true_eq]
        rw [hl]
        exact List.mem_map.mpr ⟨_, List.mem_map.mpr ⟨is, his, rfl⟩, rfl⟩
    · have := received_key H cb 0 (by norm_num) (hexEncode lock) value
      rw [this, hcb, h4]

/-- C116, deviation: nothing about the amount or the height is checked when the coinbase is made. At the heights below 32768 and from 8388608 on, and for more than the subsidy and
the fees, `GetCoinbaseParts` succeeds, and no block with this coinbase is accepted, whatever work is spent on finding a nonce. -/
theorem C116_violated (H : HashFns) (verify : Bytes → Bytes → Bytes → Bool) (tip : Tip) (L L1 : Ledger) (fees : Nat) (txs : List Transaction)
    (hm : AcceptsFees H verify L (txs.map Transaction.ToBytes) L1 fees) (hcount : txs.length < 2 ^ 32)
    (height : UInt32) (value : UInt64) (wc text wallet minerID lock : Bytes) (hw : NewP2PKHFromAddress wallet = .ok lock)
    (hwc : IsHex wc) (hsz : wc.length + minerID.length ≤ 999999000)
    (hbad : height.toNat < 2 ^ 15 ∨ 2 ^ 23 ≤ tip.height ∨ tip.subsidy + fees < value.toNat) (hh : tip.height = height.toNat) :
    ∃ c1 c2, GetCoinbaseParts height value wc text wallet minerID = .ok (c1, c2) ∧
      ∀ (version : UInt32) (e1 e2 prev time bits nonce old : Bytes) (L' : Ledger), (hexDecodeIgnore e1).length + (hexDecodeIgnore e2).length = 12 → IsTxId prev → time.length = 4 →
        IsHex bits ∧ bits.length = 8 → nonce.length = 4 → ¬ NodeAcceptsBlock H verify tip L (minedBlock H version prev time bits nonce old (BuildCoinbase c1 c2 e1 e2) txs) L' := by
  obtain ⟨c1, c2, h1, -⟩ := C59_coinbase height value wc text wallet minerID (List.replicate 24 48) [] lock [] hw hwc (by decide +kernel) (by simp; omega)
  refine ⟨c1, c2, h1, fun version e1 e2 prev time bits nonce old L' hn hp ht hb hnc hblock => ?_⟩
  obtain ⟨c1', c2', cb, g1, g2, g3⟩ := C116_block H verify tip L L1 fees txs hm hcount height value wc text wallet minerID e1 e2 lock hw hwc hn hsz version prev time bits nonce old hp ht hb hnc
  rw [h1] at g1
  cases g1
  obtain ⟨-, -, -, -, -, -, -, -, -, k1, k2, k3, -⟩ := (g3 _ _ _ rfl rfl rfl L').mp hblock
  omega

/-! ## A concrete block -/

/-- The payment of the example for C115, as a node reads it. -/
def exMempoolTx : Transaction := match Transaction.NewFromBytes (Slice.exact exStep1.2) with | .ok t => t | _ => Transaction.New

/-- The chain so far. -/
def exTip : Tip := ⟨List.replicate 28 0 ++ [9, 9, 9, 9], 40000, [0xff, 0xff, 0x7f, 0x20], 1000, 2000, 50, 1000000⟩

/-- The coinbase parts. -/
def exParts : Bytes × Bytes := match GetCoinbaseParts 40000 60 [] b!"/me/" (Address.NewFromPublicKey toyH toySigner.pubKey true).AddressString [] with | .ok r => r | _ => ([], [])

/-- The node accepts the payment. -/
theorem exMempoolTx_accepted : NodeAccepts toyH toyVerify exLedger exMempoolTx.ToBytes (exLedger.after (toyH.sha256 (toyH.sha256 exMempoolTx.ToBytes)) exMempoolTx) ∧
    IsTx MinCompactSize exMempoolTx exMempoolTx.ToBytes := by
  have hk : exCoin.key = List.replicate 32 17 ++ leBytes 4 1 := by decide +kernel
  have hs : walletStep toyH [toySigner] [exCoin] (.pay exPay1) = .ok exStep1 := by
    have : (walletStep toyH [toySigner] [exCoin] (.pay exPay1)).isOk = true := by decide +kernel
    unfold exStep1
    revert this
    cases walletStep toyH [toySigner] [exCoin] (.pay exPay1) <;> simp [Res.isOk]
  have hnone : ∀ b : Bytes, b.length = 32 → b ≠ List.replicate 32 17 → ∀ n, exLedger (b ++ leBytes 4 n) = none := by
    intro b hl hb n
    unfold exLedger
    rw [if_neg]
    rw [hk]
    intro e
    exact hb (List.append_inj_left e (by simp [hl]))
  have hB : Backed (keyHashes toyH [toySigner]) [exCoin] exLedger := by
    refine ⟨by simp, ?_⟩
    intro w hw
    rw [List.mem_singleton.mp hw]
    exact ⟨by unfold IsTxId; decide +kernel, _, List.mem_map.mpr ⟨toySigner, by simp, rfl⟩, (isHexString_iff _).mpr (isHex_encode _), hexDecodeIgnore_encode _, by simp [exLedger, exCoin]⟩
  have hA : Affordable [exCoin] exPay1 := ⟨⟨by simp [exPay1], by simp [exPay1], by simp [exPay1]⟩, ⟨by simp [exPay1], by decide +kernel⟩, by decide +kernel, by decide +kernel, by decide +kernel⟩
  obtain ⟨W1, b, s1, s2⟩ := wallet_pay toyH toyVerify [toySigner] (by simpa using toySigner_good) hB hA
  rw [hs] at s1
  have e2 : exStep1.2 = b := by injection s1 with s1; rw [s1]
  subst e2
  have hlen : exStep1.2.length ≤ maxTxBytes ∧ toyH.sha256 (toyH.sha256 exStep1.2) ≠ List.replicate 32 17 := by decide +kernel
  obtain ⟨L1, k1, -⟩ := s2 hlen.1 (fun n _ => hnone _ (toyH.sha256_length _) hlen.2 n)
  obtain ⟨a1, a2, tx, a3, a4, rfl⟩ := k1
  have hmx : maxTxBytes < 2 ^ 32 := by decide
  have hpar : Transaction.NewFromBytes (Slice.exact exStep1.2) = .ok tx := (C35_accepts_iff exStep1.2 [] (by simp; omega) tx).mpr (isTx_mono a3)
  have htx : exMempoolTx = tx := by unfold exMempoolTx; rw [hpar]
  subst htx
  have hb : exStep1.2 = exMempoolTx.ToBytes := isTx_min_eq _ _ a3
  rw [hb] at a1 a2 a3
  exact ⟨⟨a1, a2, exMempoolTx, a3, a4, rfl⟩, a3⟩

/-- The block. -/
def exBlock : Bytes :=
  minedBlock toyH 4 (b!"09090909" ++ List.replicate 56 48) [0xdc, 5, 0, 0] b!"207fffff" [7, 7, 7, 7] [] (BuildCoinbase exParts.1 exParts.2 b!"0102030405060708" b!"0a0b0c0d") [exMempoolTx]

/-- The node accepts a block of the payment and a coinbase that takes the subsidy and the fee of 10, and has the coinbase's output afterwards. -/
theorem exBlock_both : AcceptsFees toyH toyVerify exLedger [exMempoolTx.ToBytes] (exLedger.after (toyH.sha256 (toyH.sha256 exMempoolTx.ToBytes)) exMempoolTx) 10 ∧
    ∃ L', NodeAcceptsBlock toyH toyVerify exTip exLedger exBlock L' := by
  have hk : exCoin.key = List.replicate 32 17 ++ leBytes 4 1 := by decide +kernel
  have hnone : ∀ b : Bytes, b.length = 32 → b ≠ List.replicate 32 17 → ∀ n, exLedger (b ++ leBytes 4 n) = none := by
    intro b hl hb n
    unfold exLedger
    rw [if_neg]
    rw [hk]
    intro e
    exact hb (List.append_inj_left e (by simp [hl]))
  have hfee : valueIn exLedger exMempoolTx - valueOut exMempoolTx = 10 := by decide +kernel
  have hacc : AcceptsFees toyH toyVerify exLedger [exMempoolTx.ToBytes] (exLedger.after (toyH.sha256 (toyH.sha256 exMempoolTx.ToBytes)) exMempoolTx) 10 :=
    ⟨_, exMempoolTx, 0, exMempoolTx_accepted.1, exMempoolTx_accepted.2, ⟨rfl, rfl⟩, by rw [hfee]⟩
  refine ⟨hacc, ?_⟩
  unfold exBlock
  have hparts : GetCoinbaseParts 40000 60 [] b!"/me/" (Address.NewFromPublicKey toyH toySigner.pubKey true).AddressString [] = .ok exParts := by
    have : (GetCoinbaseParts 40000 60 [] b!"/me/" (Address.NewFromPublicKey toyH toySigner.pubKey true).AddressString []).isOk = true := by decide +kernel
    unfold exParts
    revert this
    cases GetCoinbaseParts 40000 60 [] b!"/me/" (Address.NewFromPublicKey toyH toySigner.pubKey true).AddressString [] <;> simp [Res.isOk]
  obtain ⟨lock, hlock⟩ : ∃ lock, NewP2PKHFromAddress (Address.NewFromPublicKey toyH toySigner.pubKey true).AddressString = .ok lock := by
    have : (NewP2PKHFromAddress (Address.NewFromPublicKey toyH toySigner.pubKey true).AddressString).isOk = true := by decide +kernel
    revert this
    cases NewP2PKHFromAddress (Address.NewFromPublicKey toyH toySigner.pubKey true).AddressString <;> simp [Res.isOk]
  obtain ⟨c1, c2, cb, h1, -, h3⟩ := C116_block toyH toyVerify exTip exLedger _ 10 [exMempoolTx] hacc (by simp) 40000 60 [] b!"/me/" (Address.NewFromPublicKey toyH toySigner.pubKey true).AddressString []
    b!"0102030405060708" b!"0a0b0c0d" lock hlock ⟨rfl, by simp⟩ (by decide +kernel) (by simp) 4 (b!"09090909" ++ List.replicate 56 48) [0xdc, 5, 0, 0] b!"207fffff" [7, 7, 7, 7] []
    (by decide +kernel) rfl ⟨by decide +kernel, rfl⟩ rfl
  rw [hparts] at h1
  have e3 : exParts = (c1, c2) := by injection h1
  have e4 : exParts.1 = c1 ∧ exParts.2 = c2 := by rw [e3]; exact ⟨rfl, rfl⟩
  rw [e4.1, e4.2]
  refine ⟨_, (h3 _ _ _ rfl rfl rfl _).mpr ⟨?_, by decide, by decide, by decide +kernel, by decide +kernel, by decide +kernel, by decide +kernel, ?_, by decide, by decide, by decide, by decide, by decide, ?_, ?_, rfl⟩⟩
  · rw [← e4.1, ← e4.2]; decide +kernel
  · refine ⟨_, C56_target b!"207fffff" 0x20 0x7f 0xff 0xff [] (by decide +kernel) (by decide +kernel), by decide +kernel, by decide +kernel, ?_⟩
    rw [← e4.1, ← e4.2]; decide +kernel
  · rw [← e4.1, ← e4.2]; decide +kernel
  · intro n _
    refine hnone _ (toyH.sha256_length _) ?_ n
    rw [← e4.1, ← e4.2]; decide +kernel

theorem exBlock_accepted : ∃ L', NodeAcceptsBlock toyH toyVerify exTip exLedger exBlock L' := exBlock_both.2

end Verif.Props
