import Verif.Model.Block
import Verif.Spec.Coinbase
import Verif.Lemmas.TxBytes
import Verif.Props.TxBuild
/-!
# C59, C60: coinbase transactions
-/
namespace Verif.Props
open Verif Spec

theorem isSeq_outputs (os : List Output) (h : ∀ o ∈ os, o.LockingScript.length < 2 ^ 64) : IsSeq (IsOutput CompactSize) os (os.flatMap Output.ToBytes) := by
  induction os with
  | nil => rfl
  | cons o os ih =>
    refine ⟨o.ToBytes, _, ⟨VarInt (UInt64.ofNat o.LockingScript.length), ?_, ?_⟩, ih (fun x hx => h x (by simp [hx])), rfl⟩
    · have := varInt_compact (UInt64.ofNat o.LockingScript.length)
      rwa [UInt64.toNat_ofNat', Nat.mod_eq_of_lt (h o (by simp))] at this
    · simp [Output.ToBytes, putUint64_eq]

theorem arbitrary_eq (height : UInt32) (text : Bytes) :
    (let d : Bytes := [0x03] ++ (putUint32 height).take 3 ++ text
     if d.length > 88 then d.take 88 else d) = 0x03 :: (leBytes 3 height.toNat ++ text.take 84) := by
  have h3 : (putUint32 height).take 3 = leBytes 3 height.toNat := by
    simp [putUint32, leBytes]
  dsimp only
  rw [h3]
  have hl : (leBytes 3 height.toNat).length = 3 := by simp
  split_ifs with h
  · have : ([0x03] ++ leBytes 3 height.toNat ++ text).take 88 = [0x03] ++ leBytes 3 height.toNat ++ text.take 84 := by
      rw [show 88 = ([0x03] ++ leBytes 3 height.toNat).length + 84 by simp, List.take_length_add_append]
    rw [this]; simp
  · rw [List.take_of_length_le (i := 84)]
    · simp
    · simp at h; omega

theorem makeCoinbase1_eq (height : UInt32) (text : Bytes) :
    makeCoinbase1 height text = leBytes 4 1 ++ [0x01] ++ List.replicate 32 0 ++ [0xff, 0xff, 0xff, 0xff] ++
      VarInt (UInt64.ofNat (4 + min 84 text.length + 12)) ++ (0x03 :: (leBytes 3 height.toNat ++ text.take 84)) := by
  have h := arbitrary_eq height text
  unfold makeCoinbase1
  dsimp only at h ⊢
  rw [h, putUint32_eq]
  simp only [List.length_cons, List.length_append, leBytes_length, List.length_take]
  congr 4
  rw [show 3 + min 84 (List.length text) + 1 = 4 + min 84 text.length by omega]

theorem coinbaseOutputs_eq (value : UInt64) (wc wallet minerID lock : Bytes) (hw : NewP2PKHFromAddress wallet = .ok lock) :
    (IsHex wc → makeCoinbaseOutputTransactions value wc wallet minerID =
      .ok (VarInt (UInt64.ofNat (coinbaseOutputs value lock wc minerID).length) ++ (coinbaseOutputs value lock wc minerID).flatMap Output.ToBytes)) ∧
    (¬ IsHex wc → ∃ m, makeCoinbaseOutputTransactions value wc wallet minerID = .err m) := by
  have ho : Output.NewP2PKHFromAddress wallet value = .ok ⟨value, lock⟩ := by simp [Output.NewP2PKHFromAddress, hw]
  have hz : putUint64 0 = List.replicate 8 0 := by decide +kernel
  unfold makeCoinbaseOutputTransactions coinbaseOutputs
  rw [ho, Res.ok_bind]
  dsimp only
  constructor
  · intro hx
    by_cases h1 : wc = []
    · by_cases h2 : minerID = []
      · subst h1 h2; simp [Output.ToBytes]
      · have : 0 < minerID.length := List.length_pos_iff.mpr h2
        subst h1; simp [Output.ToBytes, h2, this, hz]
    · rw [hexDecodeRes_isHex hx]
      by_cases h2 : minerID = []
      · subst h2; simp [Output.ToBytes, h1, hz]
      · have : 0 < minerID.length := List.length_pos_iff.mpr h2
        simp [Output.ToBytes, h1, h2, this, hz]
  · intro hx
    obtain ⟨m, hm⟩ := hexDecodeRes_not_isHex hx
    have h1 : wc ≠ [] := by rintro rfl; exact hx ⟨rfl, by simp⟩
    exact ⟨m, by simp [h1, hm]⟩

/-- C59: the assembled coinbase is accepted by the transaction parser (with whatever memory behind it), with nothing left over, and parses to exactly the
expected coinbase transaction. -/
theorem C59_coinbase (height : UInt32) (value : UInt64) (wc text wallet minerID e1 e2 lock sp : Bytes) (hw : NewP2PKHFromAddress wallet = .ok lock)
    (hwc : IsHex wc) (hn : (hexDecodeIgnore e1).length + (hexDecodeIgnore e2).length = 12)
    (hsz : wc.length + minerID.length + sp.length < 2 ^ 61) :
    ∃ c1 c2, GetCoinbaseParts height value wc text wallet minerID = .ok (c1, c2) ∧
      Transaction.NewFromBytes ⟨BuildCoinbase c1 c2 e1 e2, sp⟩ = .ok (coinbaseTx height value wc text lock minerID e1 e2) ∧
      (coinbaseTx height value wc text lock minerID e1 e2).IsCoinbase = true ∧
      (coinbaseTx height value wc text lock minerID e1 e2).ToBytes = BuildCoinbase c1 c2 e1 e2 := by
  have hout := (coinbaseOutputs_eq value wc wallet minerID lock hw).1 hwc
  have hlock : lock.length = 25 := by
    by_cases ha : IsAddressLike wallet
    · rw [(p2pkhAddress_eq wallet).1 ha, Res.ok.injEq] at hw
      rw [← hw]
      have : (base58Decode wallet).length = 25 := ha.1
      simp [this]
    · obtain ⟨m, hm⟩ := (p2pkhAddress_eq wallet).2 ha
      rw [hm] at hw; cases hw
  have hwl := hexDecodeIgnore_length hwc
  have hol : ∀ o ∈ coinbaseOutputs value lock wc minerID, o.LockingScript.length < 2 ^ 61 := by
    intro o ho
    unfold coinbaseOutputs at ho
    simp only [List.mem_append, List.mem_cons, List.not_mem_nil, or_false] at ho
    rcases ho with (rfl | ho) | ho
    · simp only; omega
    · split_ifs at ho
      · simp at ho
      · simp only [List.mem_cons, List.not_mem_nil, or_false] at ho
        subst ho; simp only; omega
    · split_ifs at ho
      · simp at ho
      · simp only [List.mem_cons, List.not_mem_nil, or_false] at ho
        subst ho; simp only; omega
  have hos3 : (coinbaseOutputs value lock wc minerID).length ≤ 3 := by
    unfold coinbaseOutputs; split_ifs <;> simp
  have hbl : ((coinbaseOutputs value lock wc minerID).flatMap Output.ToBytes).length ≤ 100 + wc.length + minerID.length := by
    have hv := fun n => VarInt_length_le n
    unfold coinbaseOutputs
    split_ifs <;> simp only [List.append_nil, List.flatMap_append, List.flatMap_cons, List.flatMap_nil, List.length_append, Output.ToBytes, putUint64_eq, leBytes_length]
    all_goals
      have h1 := hv (UInt64.ofNat lock.length)
      have h2 := hv (UInt64.ofNat (hexDecodeIgnore wc).length)
      have h3 := hv (UInt64.ofNat minerID.length)
      omega
  have hsl : (coinbaseScript height text e1 e2).length = 4 + min 84 text.length + 12 := by
    simp only [coinbaseScript, List.length_cons, List.length_append, leBytes_length, List.length_take]; omega
  generalize hos : coinbaseOutputs value lock wc minerID = os at *
  have hbuild : BuildCoinbase (makeCoinbase1 height text) (makeCoinbase2 (VarInt (UInt64.ofNat os.length) ++ os.flatMap Output.ToBytes)) e1 e2 =
      leBytes 4 1 ++ [0x01] ++ (List.replicate 32 0 ++ leBytes 4 0xffffffff ++ VarInt (UInt64.ofNat (4 + min 84 text.length + 12)) ++ coinbaseScript height text e1 e2 ++ leBytes 4 0xffffffff) ++
        VarInt (UInt64.ofNat os.length) ++ os.flatMap Output.ToBytes ++ leBytes 4 0 := by
    unfold BuildCoinbase makeCoinbase2
    rw [makeCoinbase1_eq]
    have hff : leBytes 4 0xffffffff = [0xff, 0xff, 0xff, 0xff] := by decide +kernel
    have h0 : leBytes 4 0 = List.replicate 4 0 := by decide +kernel
    simp only [coinbaseScript, hff, h0, List.append_assoc, List.cons_append, List.nil_append]
  have hcap : (BuildCoinbase (makeCoinbase1 height text) (makeCoinbase2 (VarInt (UInt64.ofNat os.length) ++ os.flatMap Output.ToBytes)) e1 e2).length + sp.length < 2 ^ 62 := by
    rw [hbuild]
    simp only [List.length_append, leBytes_length, List.length_replicate, List.length_cons, List.length_nil, hsl]
    have h1 := VarInt_length_le (UInt64.ofNat (4 + min 84 text.length + 12))
    have h2 := VarInt_length_le (UInt64.ofNat os.length)
    omega
  have hin : IsInput CompactSize (coinbaseInput height text e1 e2)
      (List.replicate 32 0 ++ leBytes 4 0xffffffff ++ VarInt (UInt64.ofNat (4 + min 84 text.length + 12)) ++ coinbaseScript height text e1 e2 ++ leBytes 4 0xffffffff) := by
    refine ⟨List.replicate 32 0, _, coinbaseScript height text e1 e2, by simp, ?_, rfl, show List.replicate 64 48 = _ by decide +kernel, rfl, rfl, rfl⟩
    have := varInt_compact (UInt64.ofNat (4 + min 84 text.length + 12))
    rw [UInt64.toNat_ofNat', Nat.mod_eq_of_lt (by omega)] at this
    rwa [hsl]
  have htx : IsTx CompactSize (coinbaseTx height value wc text lock minerID e1 e2)
      (BuildCoinbase (makeCoinbase1 height text) (makeCoinbase2 (VarInt (UInt64.ofNat os.length) ++ os.flatMap Output.ToBytes)) e1 e2) := by
    rw [hbuild]
    refine ⟨[0x01], _, VarInt (UInt64.ofNat os.length), os.flatMap Output.ToBytes, ?_, ⟨_, [], hin, rfl, by rw [List.append_nil]⟩, ?_, ?_, rfl⟩
    · exact Or.inl ⟨by simp [coinbaseTx], rfl⟩
    · have := varInt_compact (UInt64.ofNat os.length)
      rw [UInt64.toNat_ofNat', Nat.mod_eq_of_lt (by omega)] at this
      simpa [coinbaseTx, hos] using this
    · simp only [coinbaseTx, hos]
      exact isSeq_outputs os (fun o ho => by have := hol o ho; omega)
  refine ⟨makeCoinbase1 height text, makeCoinbase2 (VarInt (UInt64.ofNat os.length) ++ os.flatMap Output.ToBytes), ?_, ?_, ?_, ?_⟩
  · simp [GetCoinbaseParts, hout]
  · exact (tx_parse_iff _ _ hcap _).mpr htx
  · simp [coinbaseTx, coinbaseInput, Transaction.IsCoinbase, Transaction.zeroTxID]
  · rw [hbuild, tx_toBytes_eq]
    simp only [coinbaseTx, coinbaseInput, hos, Input.ToBytes, List.length_cons, List.length_nil, List.flatMap_cons, List.flatMap_nil, hsl]
    have hz : ReverseBytes (hexDecodeIgnore (List.replicate 64 48)) = List.replicate 32 0 := by decide +kernel
    have h1 : VarInt (UInt64.ofNat (0 + 1)) = [0x01] := by decide +kernel
    rw [hz, h1]
    simp [putUint32_eq]

/-- C59: `GetCoinbaseParts` fails exactly for a bad address or a witness commitment that is not hex; it never panics. -/
theorem C59_failures (height : UInt32) (value : UInt64) (wc text wallet minerID : Bytes) :
    ((GetCoinbaseParts height value wc text wallet minerID).isErr ↔ ¬ IsAddressLike wallet ∨ ¬ IsHex wc) ∧
    GetCoinbaseParts height value wc text wallet minerID ≠ .panic := by
  by_cases ha : IsAddressLike wallet
  · have hw := (p2pkhAddress_eq wallet).1 ha
    obtain ⟨h1, h2⟩ := coinbaseOutputs_eq value wc wallet minerID _ hw
    by_cases hx : IsHex wc
    · simp [GetCoinbaseParts, h1 hx, ha, hx]
    · obtain ⟨m, hm⟩ := h2 hx
      simp [GetCoinbaseParts, hm, hx]
  · obtain ⟨m, hm⟩ := (p2pkhAddress_eq wallet).2 ha
    simp [GetCoinbaseParts, makeCoinbaseOutputTransactions, Output.NewP2PKHFromAddress, hm, ha]

/-- non-vacuity: a wallet of zeros, a commitment, a miner id, 8+4 bytes of extra nonces -/
example : NewP2PKHFromAddress b!"1111111111111111111114oLvT2" = .ok ([0x76, 0xa9, 0x14] ++ List.replicate 20 0 ++ [0x88, 0xac]) ∧ IsHex b!"6a24aa21a9ed" ∧
    (hexDecodeIgnore b!"0011223344556677").length + (hexDecodeIgnore b!"deadbeef").length = 12 ∧
    (GetCoinbaseParts 518847 2504275756 b!"6a24aa21a9ed" b!"/hello/" b!"1111111111111111111114oLvT2" [0x6a]).isOk := by
  refine ⟨by decide +kernel, ⟨by decide +kernel, by decide +kernel⟩, by decide +kernel, by decide +kernel⟩

/-- C59: the height is readable from the script exactly modulo 2^24: three bytes after the push opcode. -/
theorem C59_height (height : UInt32) (text e1 e2 : Bytes) :
    (coinbaseScript height text e1 e2).head? = some 0x03 ∧ leNat (((coinbaseScript height text e1 e2).drop 1).take 3) = height.toNat % 2 ^ 24 ∧
    (height.toNat < 2 ^ 24 → leNat (((coinbaseScript height text e1 e2).drop 1).take 3) = height.toNat) := by
  have h : ((coinbaseScript height text e1 e2).drop 1).take 3 = leBytes 3 height.toNat := by
    simp only [coinbaseScript, List.drop_succ_cons, List.drop_zero, List.append_assoc]
    rw [List.take_left' (by simp)]
  rw [h, leNat_leBytes]
  refine ⟨rfl, rfl, fun hl => Nat.mod_eq_of_lt hl⟩

/-- C59 (outside the stated domain): from height 2^24 on the top byte is lost, two heights give the same coinbase. -/
theorem C59_height_truncated (h : UInt32) (text : Bytes) : makeCoinbase1 (h + 0x01000000) text = makeCoinbase1 h text := by
  have : leBytes 3 (h + 0x01000000).toNat = leBytes 3 h.toNat := by
    have hh := h.toNat_lt
    have key : ∀ v w : Nat, v % 256 ^ 3 = w % 256 ^ 3 → leBytes 3 v = leBytes 3 w := by
      intro v w e
      have h1 := leBytes_leNat (leBytes 3 v)
      have h2 := leBytes_leNat (leBytes 3 w)
      rw [leBytes_length, leNat_leBytes] at h1 h2
      rw [← h1, ← h2, e]
    apply key
    rw [UInt32.toNat_add, show (0x01000000 : UInt32).toNat = 16777216 from rfl]
    omega
  rw [makeCoinbase1_eq, makeCoinbase1_eq, this]

/-- C60: the script of the parsed coinbase is 16 to 100 bytes long for every text, contains the first 84 bytes of the text right after the height, and all of it
when it has at most 84 bytes; it ends with the extra nonces. -/
theorem C60_script (height : UInt32) (text e1 e2 : Bytes) (hn : (hexDecodeIgnore e1).length + (hexDecodeIgnore e2).length = 12) :
    let s := coinbaseScript height text e1 e2
    s.length = 16 + min 84 text.length ∧ s.length ≤ 100 ∧ (s.drop 4).take (s.length - 16) = text.take 84 ∧
    (text.length ≤ 84 → (s.drop 4).take (s.length - 16) = text) ∧ s.drop (s.length - 12) = hexDecodeIgnore e1 ++ hexDecodeIgnore e2 := by
  intro s
  have hl : s.length = 16 + min 84 text.length := by
    simp only [s, coinbaseScript, List.length_cons, List.length_append, leBytes_length, List.length_take]; omega
  have hs : s = (0x03 :: leBytes 3 height.toNat) ++ (text.take 84 ++ (hexDecodeIgnore e1 ++ hexDecodeIgnore e2)) := by
    simp [s, coinbaseScript]
  have hd : s.drop 4 = text.take 84 ++ (hexDecodeIgnore e1 ++ hexDecodeIgnore e2) := by rw [hs, List.drop_left' (by simp)]
  have ht : (s.drop 4).take (s.length - 16) = text.take 84 := by rw [hd, List.take_left' (by rw [List.length_take]; omega)]
  refine ⟨hl, by omega, ht, fun h => by rw [ht, List.take_of_length_le h], ?_⟩
  rw [show s.length - 12 = 4 + (text.take 84).length by rw [List.length_take]; omega, ← List.drop_drop, hd, List.drop_left' rfl]

/-- C60: the first part announces the script length including the 12 bytes of extra nonces that follow it. -/
theorem C60_announced (height : UInt32) (text : Bytes) :
    ∃ data, makeCoinbase1 height text = leBytes 4 1 ++ [1] ++ List.replicate 32 0 ++ [0xff, 0xff, 0xff, 0xff] ++ [UInt8.ofNat (data.length + 12)] ++ data ∧
      data.length ≤ 88 := by
  refine ⟨0x03 :: (leBytes 3 height.toNat ++ text.take 84), ?_, ?_⟩
  · rw [makeCoinbase1_eq]
    have h1 : (0x03 :: (leBytes 3 height.toNat ++ text.take 84)).length = 4 + min 84 text.length := by
      simp only [List.length_cons, List.length_append, leBytes_length, List.length_take]; omega
    rw [h1]
    congr 2
    have hlt : (UInt64.ofNat (4 + min 84 text.length + 12)).toNat = 4 + min 84 text.length + 12 := by
      rw [UInt64.toNat_ofNat', Nat.mod_eq_of_lt (by omega)]
    have h8 : UInt64.ofNat (4 + min 84 text.length + 12) < 0xfd := by
      rw [UInt64.lt_iff_toNat_lt, hlt, show (0xfd : UInt64).toNat = 253 from rfl]; omega
    unfold VarInt
    rw [if_pos h8]
    congr 1
    apply UInt8.toNat_inj.mp
    rw [UInt64.toNat_toUInt8, hlt, UInt8.toNat_ofNat']
  · simp only [List.length_cons, List.length_append, leBytes_length, List.length_take]; omega

/-- non-vacuity: a text of 90 bytes is cut, a short one is not -/
example : (coinbaseScript 1 (List.replicate 90 65) (List.replicate 16 48) (List.replicate 8 48)).length = 100 ∧
    (coinbaseScript 1 b!"abc" (List.replicate 16 48) (List.replicate 8 48)).length = 19 ∧
    (hexDecodeIgnore (List.replicate 16 48)).length + (hexDecodeIgnore (List.replicate 8 48)).length = 12 := by decide +kernel

end Verif.Props
