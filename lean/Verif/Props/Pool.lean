import Verif.Spec.Pool
import Verif.Props.Chain
import Verif.Props.CoinbaseNonce
import Verif.Props.Handover
/-!
# C129: the work of a mining pool
-/
namespace Verif.Props
open Verif Spec Transaction

/-- The header that the pool and its miners build, with the library, for a share. -/
def shareHeader (H : HashFns) (job : Job) (s : Share) : Bytes :=
  BuildBlockHeader job.version job.prev (BuildMerkleRootFromCoinbase H (Sha256d H (BuildCoinbase job.c1 job.c2 s.e1 s.e2)) job.branches) s.time job.bits s.nonce

theorem root_path (H : HashFns) (bs : List Bytes) : ∀ x y : Bytes, BuildMerkleRootFromCoinbase H (Sha256d H x) bs = BuildMerkleRootFromCoinbase H (Sha256d H y) bs →
    x = y ∨ PathCollision (fun x => H.sha256 (H.sha256 x)) (pathStrings (fun x => H.sha256 (H.sha256 x)) x (bs.map hexDecodeIgnore)) (pathStrings (fun x => H.sha256 (H.sha256 x)) y (bs.map hexDecodeIgnore)) := by
  induction bs with
  | nil =>
    intro x y h
    by_cases e : x = y
    · exact .inl e
    · exact .inr ⟨0, x, y, rfl, rfl, e, h⟩
  | cons b bs ih =>
    intro x y h
    by_cases e : x = y
    · exact .inl e
    · by_cases e2 : H.sha256 (H.sha256 x) = H.sha256 (H.sha256 y)
      · exact .inr ⟨0, x, y, rfl, rfl, e, e2⟩
      · rcases ih (H.sha256 (H.sha256 x) ++ hexDecodeIgnore b) (H.sha256 (H.sha256 y) ++ hexDecodeIgnore b) h with h | ⟨k, u, v, h1, h2, h3, h4⟩
        · exact absurd (List.append_cancel_right h) e2
        · exact .inr ⟨k + 1, u, v, h1, h2, h3, h4⟩

theorem root32 (H : HashFns) (bs : List Bytes) : ∀ x : Bytes, (BuildMerkleRootFromCoinbase H (Sha256d H x) bs).length = 32 := by
  induction bs with
  | nil => intro x; exact H.sha256_length _
  | cons b bs ih => intro x; exact ih _

/-- C129: for any job and two shares, with times and nonces of four bytes and first extra nonces of one length: the headers are the same exactly if the extra nonces have the same bytes and time and nonce are the same,
unless two different strings hashed on the same level of the two paths to the Merkle root collide. So no two miners ever do the same work. -/
theorem C129_distinct (H : HashFns) (job : Job) (s s' : Share) (d1 d2 d1' d2' : Bytes) (h1 : HexStart s.e1 d1) (h2 : HexStart s.e2 d2) (h1' : HexStart s'.e1 d1') (h2' : HexStart s'.e2 d2')
    (hl : d1.length = d1'.length) (ht : s.time.length = 4 ∧ s'.time.length = 4) :
    (shareHeader H job s = shareHeader H job s' ↔ (d1 = d1' ∧ d2 = d2' ∧ s.time = s'.time ∧ s.nonce = s'.nonce)) ∨
    PathCollision (fun x => H.sha256 (H.sha256 x)) (job.strings H (BuildCoinbase job.c1 job.c2 s.e1 s.e2)) (job.strings H (BuildCoinbase job.c1 job.c2 s'.e1 s'.e2)) := by
  by_cases hc : PathCollision (fun x => H.sha256 (H.sha256 x)) (job.strings H (BuildCoinbase job.c1 job.c2 s.e1 s.e2)) (job.strings H (BuildCoinbase job.c1 job.c2 s'.e1 s'.e2))
  · exact .inr hc
  refine .inl ⟨fun h => ?_, fun ⟨a, b, c, d⟩ => ?_⟩
  · unfold shareHeader BuildBlockHeader at h
    dsimp only at h
    simp only [List.append_assoc] at h
    have h := List.append_cancel_left (List.append_cancel_left h)
    obtain ⟨hr, h⟩ := List.append_inj h (by rw [root32, root32])
    obtain ⟨ht', h⟩ := List.append_inj h (by rw [ht.1, ht.2])
    have hn := List.append_cancel_left h
    rcases root_path H _ _ _ hr with hb | hb
    · rw [C102_concat _ _ _ _ _ _ h1 h2, C102_concat _ _ _ _ _ _ h1' h2'] at hb
      simp only [List.append_assoc] at hb
      obtain ⟨g1, g⟩ := List.append_inj (List.append_cancel_left hb) hl
      exact ⟨g1, List.append_cancel_right g, ht', hn⟩
    · exact absurd hb hc
  · subst a b
    unfold shareHeader
    rw [C102_concat _ _ _ _ _ _ h1 h2, C102_concat _ _ _ _ _ _ h1' h2', c, d]

/-- C129, deviation: an extra nonce is a text of which only the beginning in hex counts, in either case, and nothing is said if there is more. Upper and lower case give the same header; and for every share
and every number there are that many texts, all different, that give the same header: a pool that tells new shares by their texts can be made to pay for the same work any number of times. -/
theorem C129_violated (H : HashFns) (job : Job) (s : Share) :
    (∀ t : Bytes, t.map lowerChar = s.e2.map lowerChar → shareHeader H job { s with e2 := t } = shareHeader H job s) ∧
    ∀ n : Nat, ∃ texts : List Bytes, texts.length = n ∧ texts.Nodup ∧ ∀ t ∈ texts, shareHeader H job { s with e2 := t } = shareHeader H job s := by
  have key : ∀ t : Bytes, hexDecodeIgnore t = hexDecodeIgnore s.e2 → shareHeader H job { s with e2 := t } = shareHeader H job s := by
    intro t h
    simp only [shareHeader, BuildCoinbase, h]
  constructor
  · intro t h
    apply key
    rw [hexDecodeIgnore, hexDecodeIgnore, ← hexDecode_lower t, ← hexDecode_lower s.e2, h]
  · intro n
    refine ⟨(List.range n).map fun i => hexEncode (hexDecodeIgnore s.e2) ++ List.replicate i 120, by simp, ?_, ?_⟩
    · rw [List.nodup_map_iff_inj_on List.nodup_range]
      intro a _ b _ h
      simpa using congrArg List.length h
    · intro t ht
      obtain ⟨i, -, rfl⟩ := List.mem_map.mp ht
      apply key
      rw [← hexStart_iff]
      refine ⟨hexEncode (hexDecodeIgnore s.e2), List.replicate i 120, rfl, by simp, ?_, ?_, ?_⟩
      · intro c hc
        rcases hexEncode_lower _ c hc with h | h
        exacts [.inl h, .inr (.inl h)]
      · rw [← hexEncode_decode (isHex_encode _), hexDecodeIgnore_encode]
      · intro x y r e
        have hx : x ∈ List.replicate i (120 : UInt8) := by rw [e]; simp
        rw [List.eq_of_mem_replicate hx]
        rintro ⟨h, -⟩
        exact absurd h (by decide)

/-! ## A share that is a block -/

/-- The transaction that a coinbase stands for if the miner has chosen the outputs `outs`: what the pool wanted (`buried`) is in the script of one more output. -/
def redirectTx (height : UInt32) (text e1 e2 buried : Bytes) (outs : List Output) : Transaction :=
  { Version := 1, Locktime := 0, Inputs := [coinbaseInput height text e1 e2], Outputs := outs ++ [⟨0, buried⟩] }

theorem redirect_bytes (height : UInt32) (value : UInt64) (wc text wallet minerID e1 c1 c2 : Bytes) (outs : List Output)
    (hp : GetCoinbaseParts height value wc text wallet minerID = .ok (c1, c2)) (h12 : (hexDecodeIgnore e1).length ≤ 12) :
    ∃ e2 e3, (hexDecodeIgnore e1).length + (hexDecodeIgnore e3).length = 12 ∧ BuildCoinbase c1 c2 e1 e2 = (redirectTx height text e1 e3 (c2.take (c2.length - 4)) outs).ToBytes := by
  obtain ⟨rfl, ot, rfl⟩ := coinbaseParts_eq _ _ _ _ _ _ _ _ hp
  generalize hd1 : hexDecodeIgnore e1 = d1 at *
  have hc2 : makeCoinbase2 ot = ([0xff, 0xff, 0xff, 0xff] ++ ot) ++ List.replicate 4 0 := by unfold makeCoinbase2; simp
  have ht : (makeCoinbase2 ot).take ((makeCoinbase2 ot).length - 4) = [0xff, 0xff, 0xff, 0xff] ++ ot := by
    rw [hc2, List.length_append, List.length_replicate, Nat.add_sub_cancel, List.take_left]
  rw [ht]
  generalize hbur : [0xff, 0xff, 0xff, 0xff] ++ ot = bur at *
  let d2 : Bytes := List.replicate (12 - d1.length) 0 ++ [0xff, 0xff, 0xff, 0xff] ++ VarInt (UInt64.ofNat (outs.length + 1)) ++ outs.flatMap Output.ToBytes ++ putUint64 0 ++
    VarInt (UInt64.ofNat bur.length)
  refine ⟨hexEncode d2, hexEncode (List.replicate (12 - d1.length) 0), by simp; omega, ?_⟩
  rw [C102_concat _ _ e1 _ d1 d2 ((hexStart_iff _ _).mpr hd1) ((hexStart_iff _ _).mpr (hexDecodeIgnore_encode _)), makeCoinbase1_eq, hc2, tx_toBytes_eq]
  have hz : (hexDecodeIgnore (List.replicate 64 48)).reverse = List.replicate 32 0 := by decide +kernel
  have hone : VarInt (UInt64.ofNat (0 + 1)) = [0x01] := by decide +kernel
  have hff : leBytes 4 0xffffffff = [0xff, 0xff, 0xff, 0xff] := by decide +kernel
  have hff' : putUint32 0xffffffff = [0xff, 0xff, 0xff, 0xff] := by decide +kernel
  have h0 : putUint32 0 = List.replicate 4 0 := by decide +kernel
  have hpv : putUint32 1 = leBytes 4 1 := by decide +kernel
  simp only [redirectTx, coinbaseInput, coinbaseScript, d2, hd1, hexDecodeIgnore_encode, List.flatMap_cons, List.flatMap_nil, input_toBytes_eq, hz, hone, List.length_cons, List.length_nil, List.flatMap_append,
    Option.getD_some, List.length_append, Output.ToBytes, hff', h0, hpv, List.append_nil]
  have hl2 : (leBytes 3 height.toNat).length + (text.take 84).length + d1.length + (List.replicate (12 - d1.length) (0 : UInt8)).length + 1 = 4 + min 84 text.length + 12 := by
    simp only [leBytes_length, List.length_take, List.length_replicate]; omega
  rw [hl2]
  simp [List.append_assoc]

/-- The block that a share makes. -/
def shareBlock (H : HashFns) (job : Job) (s : Share) (txs : List Transaction) : Bytes :=
  shareHeader H job s ++ VarInt (UInt64.ofNat (txs.length + 1)) ++ BuildCoinbase job.c1 job.c2 s.e1 s.e2 ++ txs.flatMap Transaction.ToBytes

/-- The job that a pool makes with the library: coinbase parts, Merkle branches of the other transactions, the bits (a hex text) backwards. `old` stands for the coinbase when the branches are computed. -/
def poolJob (H : HashFns) (version : UInt32) (prev bits old c1 c2 : Bytes) (txs : List Transaction) : Job :=
  ⟨version, prev, c1, c2, GetMerkleBranches H (old :: txs.map (GetTxID H)), ReverseBytes (hexDecodeIgnore bits)⟩

/-- The unspent outputs have no output of a transaction with this hash, and no other transaction of the block has it. -/
def NewHashes (H : HashFns) (L : Ledger) (coinbase : Bytes) (txs : List Transaction) : Prop :=
  ((coinbase :: txs.map Transaction.ToBytes).map fun x => H.sha256 (H.sha256 x)).Nodup ∧ ∀ n < 2 ^ 32, L (H.sha256 (H.sha256 coinbase) ++ leBytes 4 n) = none

theorem after_first (L : Ledger) (hash : Bytes) (tx : Transaction) (o : Output) (os : List Output) (h : tx.Outputs = o :: os) : L.after hash tx (hash ++ leBytes 4 0) = some ⟨o.Satoshis, o.LockingScript⟩ := by
  simp [Ledger.after, created, h]

/-- C129: a job that a pool makes with the library for the next block. For every share with extra nonces of 12 bytes in all, whoever sends it, the block is accepted exactly if the time is in range and the
hash of the header is not above the target of `ExpandTargetFromAsInt` (and is not too large, and its coinbase is new); whatever else the miner has chosen, the coinbase then pays the whole value
to the pool's wallet. -/
theorem C129_found (H : HashFns) (verify : Bytes → Bytes → Bytes → Bool) (tip : Tip) (L L1 : Ledger) (fees : Nat) (txs : List Transaction)
    (hm : AcceptsFees H verify L (txs.map Transaction.ToBytes) L1 fees) (hcount : txs.length < 2 ^ 32)
    (height : UInt32) (value : UInt64) (wc text wallet minerID lock : Bytes) (hw : NewP2PKHFromAddress wallet = .ok lock) (hwc : IsHex wc) (hsz : wc.length + minerID.length ≤ 999999000)
    (version : UInt32) (prev bits old : Bytes) (hp : IsTxId prev) (hb : IsHex bits ∧ bits.length = 8) (t : Int) (ht : ExpandTargetFromAsInt bits = .ok t) :
    ∃ c1 c2, GetCoinbaseParts height value wc text wallet minerID = .ok (c1, c2) ∧ ∀ job, job = poolJob H version prev bits old c1 c2 txs → JobFits tip fees job height value t →
      ∀ s : Share, (hexDecodeIgnore s.e1).length + (hexDecodeIgnore s.e2).length = 12 → s.time.length = 4 → s.nonce.length = 4 →
        ((∃ L', NodeAcceptsBlock H verify tip L (shareBlock H job s txs) L') ↔
          (tip.earliest ≤ leNat s.time ∧ leNat s.time ≤ tip.latest) ∧ (leNat (H.sha256 (H.sha256 (shareHeader H job s))) : Int) ≤ t ∧
          (shareBlock H job s txs).length ≤ tip.maxBytes ∧ NewHashes H L (BuildCoinbase c1 c2 s.e1 s.e2) txs) ∧
        ∀ L', NodeAcceptsBlock H verify tip L (shareBlock H job s txs) L' → L' (H.sha256 (H.sha256 (BuildCoinbase c1 c2 s.e1 s.e2)) ++ leBytes 4 0) = some ⟨value, lock⟩ := by
  obtain ⟨c1, c2, h1, -⟩ := C59_coinbase height value wc text wallet minerID (List.replicate 24 48) [] lock [] hw hwc (by decide +kernel) (by simp; omega)
  refine ⟨c1, c2, h1, ?_⟩
  rintro job rfl ⟨f1, f2, f3, f4, f5, f6⟩ s hn htime hnonce
  obtain ⟨c1', c2', cb, g1, g2, g3⟩ := C116_block H verify tip L L1 fees txs hm hcount height value wc text wallet minerID s.e1 s.e2 lock hw hwc hn hsz version prev s.time bits s.nonce old hp htime hb hnonce
  rw [h1] at g1
  cases g1
  have g4 := g3 _ _ (shareBlock H (poolJob H version prev bits old c1 c2 txs) s txs) rfl rfl rfl
  constructor
  · constructor
    · rintro ⟨L', h⟩
      obtain ⟨k1, -, -, -, k5, k6, -, ⟨t', k8, -, -, k9⟩, -, -, -, -, -, k14, k15, -⟩ := (g4 L').mp h
      rw [ht] at k8
      cases k8
      exact ⟨⟨k5, k6⟩, k9, k1, k14, k15⟩
    · rintro ⟨⟨k5, k6⟩, k9, k1, k14, k15⟩
      refine ⟨_, (g4 _).mpr ⟨k1, f1.1, f1.2, f2, k5, k6, ?_, ⟨t, ht, f4.1, f4.2, k9⟩, f5.1, f5.2.1, f5.2.2, f6.1, f6.2, k14, k15, rfl⟩⟩
      rw [← f3]; exact (ReverseBytes_eq _).symm
  · intro L' h
    obtain ⟨-, -, -, -, -, -, -, -, -, -, -, -, -, -, -, rfl⟩ := (g4 L').mp h
    obtain ⟨c1', c2', q1, q2, -⟩ := C59_coinbase height value wc text wallet minerID s.e1 s.e2 lock [] hw hwc hn (by simp; omega)
    rw [h1] at q1
    cases q1
    rw [show Slice.exact (BuildCoinbase c1 c2 s.e1 s.e2) = ⟨BuildCoinbase c1 c2 s.e1 s.e2, []⟩ from rfl, q2] at g2
    cases g2
    exact after_first _ _ _ ⟨value, lock⟩ _ rfl

/-- C129, deviation: nothing checks the length of the second extra nonce, which comes from the miner. For any job as in `C129_found` and any script there is an extra nonce with which a block that
the miner finds is accepted all the same and pays the whole value to that script; what the pool wanted is in the script of an output of value zero. -/
theorem C129_stolen (H : HashFns) (verify : Bytes → Bytes → Bytes → Bool) (tip : Tip) (L L1 : Ledger) (fees : Nat) (txs : List Transaction)
    (hm : AcceptsFees H verify L (txs.map Transaction.ToBytes) L1 fees) (hcount : txs.length < 2 ^ 32)
    (height : UInt32) (value : UInt64) (wc text wallet minerID : Bytes) (version : UInt32) (prev bits old : Bytes) (hp : IsTxId prev) (hb : IsHex bits ∧ bits.length = 8) (t : Int)
    (ht : ExpandTargetFromAsInt bits = .ok t) (c1 c2 : Bytes) (hparts : GetCoinbaseParts height value wc text wallet minerID = .ok (c1, c2)) (job : Job) (hjob : job = poolJob H version prev bits old c1 c2 txs)
    (hfit : JobFits tip fees job height value t) (e1 : Bytes) (h12 : (hexDecodeIgnore e1).length ≤ 12) (theirs : Bytes) (hsz : c2.length + theirs.length ≤ 999999000) :
    ∃ e2 cb, Transaction.NewFromBytes (Slice.exact (BuildCoinbase c1 c2 e1 e2)) = .ok cb ∧ cb.Outputs = [⟨value, theirs⟩, ⟨0, c2.take (c2.length - 4)⟩] ∧
      ∀ s : Share, s.e1 = e1 → s.e2 = e2 → s.time.length = 4 → s.nonce.length = 4 → tip.earliest ≤ leNat s.time ∧ leNat s.time ≤ tip.latest →
        (leNat (H.sha256 (H.sha256 (shareHeader H job s))) : Int) ≤ t → (shareBlock H job s txs).length ≤ tip.maxBytes → NewHashes H L (BuildCoinbase c1 c2 e1 e2) txs →
        ∃ L', NodeAcceptsBlock H verify tip L (shareBlock H job s txs) L' ∧ L' (H.sha256 (H.sha256 (BuildCoinbase c1 c2 e1 e2)) ++ leBytes 4 0) = some ⟨value, theirs⟩ := by
  obtain ⟨e2, e3, hn, hbytes⟩ := redirect_bytes height value wc text wallet minerID e1 c1 c2 [⟨value, theirs⟩] hparts h12
  generalize hbur : c2.take (c2.length - 4) = buried at *
  have hbl : buried.length ≤ c2.length := by rw [← hbur, List.length_take]; omega
  generalize hcb : redirectTx height text e1 e3 buried [⟨value, theirs⟩] = cb at *
  have hsl : (coinbaseScript height text e1 e3).length = 4 + min 84 text.length + 12 := by
    simp only [coinbaseScript, List.length_cons, List.length_append, leBytes_length, List.length_take]; omega
  have hlen : cb.ToBytes.length ≤ maxTxBytes := by
    rw [← hcb, tx_toBytes_eq]
    simp only [redirectTx, List.flatMap_cons, List.flatMap_nil, List.append_nil, List.length_append, putUint32_length, input_toBytes_eq, coinbaseInput, Option.getD_some, hsl, Output.ToBytes, putUint64_length,
      List.cons_append, List.nil_append]
    have h0 : (hexDecodeIgnore (List.replicate 64 48)).reverse.length = 32 := by decide +kernel
    rw [h0]
    have hv := fun n => VarInt_length_le n
    have h1 := hv (UInt64.ofNat (4 + min 84 text.length + 12))
    have h2 := hv (UInt64.ofNat theirs.length)
    have h3 := hv (UInt64.ofNat buried.length)
    have h4 := hv (UInt64.ofNat [(⟨value, theirs⟩ : Output), ⟨0, buried⟩].length)
    have h5 : ∀ i : Input, (VarInt (UInt64.ofNat [i].length)).length ≤ 9 := fun i => hv _
    have h6 := h5 (coinbaseInput height text e1 e3)
    simp only [coinbaseInput] at h6
    unfold maxTxBytes
    omega
  have hid : ∀ i ∈ cb.Inputs, IsTxId i.PreviousTxID := by
    intro i hi
    rw [← hcb] at hi
    simp only [redirectTx, List.mem_singleton] at hi
    subst hi
    simp only [coinbaseInput]
    decide +kernel
  have hmx : maxTxBytes < 2 ^ 62 := by decide
  have hwire : wireTx cb = cb := by
    rw [← hcb]
    simp only [wireTx, redirectTx, List.map_cons, List.map_nil, wireInput, coinbaseInput, Option.getD_some]
    congr 3
  have hisTx := tx_toBytes_isTx cb hid (by omega)
  rw [hwire] at hisTx
  have hpar := C33_parse_serialise cb (sp := []) hid (by simp; omega)
  rw [hwire, ← hbytes] at hpar
  refine ⟨e2, cb, hpar, by rw [← hcb]; rfl, ?_⟩
  rintro s rfl rfl htime hnonce hrange hwork hsize ⟨hnd, hnew⟩
  subst hjob
  obtain ⟨f1, f2, f3, f4, f5, f6⟩ := hfit
  obtain ⟨hx, hl⟩ := isTxId_iff.mp hp
  have hpl : (hexDecodeIgnore prev).reverse.length = 32 := by
    have := hexDecodeIgnore_length hx
    rw [List.length_reverse]; omega
  obtain ⟨b0, b1, b2, b3, hbits⟩ : ∃ e x y z, hexDecodeIgnore bits = [e, x, y, z] := by
    have := hexDecodeIgnore_length hb.1
    rw [hb.2] at this
    match hd : hexDecodeIgnore bits, this with
    | [e, x, y, z], _ => exact ⟨e, x, y, z, rfl⟩
  have htgt := C56_target bits b0 b1 b2 b3 [] hb.1 hbits
  rw [ht] at htgt
  cases htgt
  obtain ⟨hroot, hrl⟩ := mined_root H old (BuildCoinbase c1 c2 s.e1 s.e2) txs
  have hvar : MinCompactSize (txs.length + 1) (VarInt (UInt64.ofNat (txs.length + 1))) := minCompactSize_iff.mpr ⟨by omega, rfl⟩
  have hval : ValidCoinbase tip.height (tip.subsidy + fees) cb := by
    have hv : valueOut cb = value.toNat := by rw [← hcb]; simp [valueOut, redirectTx]
    refine ⟨⟨coinbaseInput height text s.e1 e3, coinbaseScript height text s.e1 e3, by rw [← hcb]; rfl, ?_, rfl, by omega, by omega, (heightOK_iff _ _ _ _ _).mpr f5⟩, by rw [← hcb]; simp [redirectTx], by rw [hv]; exact f6.2,
      by rw [hv]; exact f6.1, .inl (by rw [← hcb]; rfl)⟩
    simp only [coinbaseInput, outpoint]
    decide +kernel
  refine ⟨L1.after (H.sha256 (H.sha256 (BuildCoinbase c1 c2 s.e1 s.e2))) cb, ⟨version, _, _, s.time, (hexDecodeIgnore bits).reverse, s.nonce, shareHeader H (poolJob H version prev bits old c1 c2 txs) s, VarInt (UInt64.ofNat (txs.length + 1)), BuildCoinbase c1 c2 s.e1 s.e2, txs.map Transaction.ToBytes, cb, L1, fees, ?_,
    hsize, ⟨hpl, hrl, htime, by rw [hbits]; rfl, hnonce, ?_⟩, f1.1, f1.2, f2, hrange.1, hrange.2, ?_, ?_, by simpa using hvar, hroot, hnd, hm, by rw [hbytes]; exact hlen, by rw [hbytes]; exact hisTx, hval, hnew, rfl⟩,
    after_first _ _ _ ⟨value, theirs⟩ _ (by rw [← hcb]; rfl)⟩
  · simp [shareBlock, List.flatMap_def, poolJob]
  · simp [shareHeader, poolJob, BuildBlockHeader, putUint32_eq, ReverseBytes_eq]
  · rw [← f3]; exact (ReverseBytes_eq _).symm
  · rw [hbits]
    exact ⟨b0, b1, b2, b3, rfl, f4.1, f4.2, hwork⟩

/-! ## Concrete jobs and shares -/

/-- The job for the block of the example for C116. -/
def exJob : Job := poolJob toyH 4 (b!"09090909" ++ List.replicate 56 48) b!"207fffff" [] exParts.1 exParts.2 [exMempoolTx]

/-- Shares of two miners. -/
def exShare : Share := ⟨b!"0102030405060708", b!"0a0b0c0d", [0xdc, 5, 0, 0], [7, 7, 7, 7]⟩
def exShare' : Share := ⟨b!"0102030405060709", b!"0a0b0c0d", [0xdc, 5, 0, 0], [7, 7, 7, 7]⟩

/-- A toy hash that looks at all bytes. -/
def sumH : HashFns where
  sha256 b := leBytes 32 (b.foldl (fun n x => 257 * n + x.toNat + 1) 0)
  ripemd160 b := leBytes 20 (b.foldl (fun n x => 257 * n + x.toNat + 1) 0)
  sha256_length _ := leBytes_length _ _
  ripemd160_length _ := leBytes_length _ _

/-- The hypotheses of C129_distinct, and headers that differ. -/
example : HexStart exShare.e1 [1, 2, 3, 4, 5, 6, 7, 8] ∧ HexStart exShare.e2 [10, 11, 12, 13] ∧ HexStart exShare'.e1 [1, 2, 3, 4, 5, 6, 7, 9] ∧ exShare.time.length = 4 ∧ exShare'.time.length = 4 ∧
    shareHeader sumH exJob exShare ≠ shareHeader sumH exJob exShare' := by
  refine ⟨(hexStart_iff _ _).mpr (by decide +kernel), (hexStart_iff _ _).mpr (by decide +kernel), (hexStart_iff _ _).mpr (by decide +kernel), by decide, by decide, by decide +kernel⟩

/-- The hypotheses of C129_found and C129_stolen: the job fits, the target is positive, the share is a block that the node accepts, so it pays the pool. -/
example : JobFits exTip 10 exJob 40000 60 (0x7fffff * 256 ^ 29) ∧ ExpandTargetFromAsInt b!"207fffff" = .ok (0x7fffff * 256 ^ 29) ∧
    GetCoinbaseParts 40000 60 [] b!"/me/" (Address.NewFromPublicKey toyH toySigner.pubKey true).AddressString [] = .ok exParts ∧ exParts.2.length ≤ 999999000 - 25 ∧
    (leNat (toyH.sha256 (toyH.sha256 (shareHeader toyH exJob exShare))) : Int) ≤ 0x7fffff * 256 ^ 29 ∧ (shareBlock toyH exJob exShare [exMempoolTx]).length ≤ exTip.maxBytes ∧
    ∃ L', NodeAcceptsBlock toyH toyVerify exTip exLedger (shareBlock toyH exJob exShare [exMempoolTx]) L' := by
  refine ⟨⟨by decide, by decide +kernel, by decide +kernel, by decide, by decide, by decide⟩, ?_, ?_, by decide +kernel, by decide +kernel, by decide +kernel, exBlock_both.2⟩
  · rw [C56_target b!"207fffff" 0x20 0x7f 0xff 0xff [] (by decide +kernel) (by decide +kernel)]; decide +kernel
  · have : (GetCoinbaseParts 40000 60 [] b!"/me/" (Address.NewFromPublicKey toyH toySigner.pubKey true).AddressString []).isOk = true := by decide +kernel
    unfold exParts
    revert this
    cases GetCoinbaseParts 40000 60 [] b!"/me/" (Address.NewFromPublicKey toyH toySigner.pubKey true).AddressString [] <;> simp [Res.isOk]

end Verif.Props
