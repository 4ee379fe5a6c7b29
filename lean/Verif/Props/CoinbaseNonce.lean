import Verif.Props.Coinbase
import Verif.Props.TxLayout
/-!
# C102: `BuildCoinbase` with extra nonces of any length
-/
namespace Verif.Props
open Verif Spec

/-- C102: the coinbase is the first part, the bytes of the two extra nonces as far as they are hex, and the second part. -/
theorem C102_concat (c1 c2 e1 e2 d1 d2 : Bytes) (h1 : HexStart e1 d1) (h2 : HexStart e2 d2) : BuildCoinbase c1 c2 e1 e2 = c1 ++ d1 ++ d2 ++ c2 := by
  rw [← (hexStart_iff _ _).mp h1, ← (hexStart_iff _ _).mp h2]; rfl

theorem coinbaseParts_eq (height : UInt32) (value : UInt64) (wc text wallet minerID c1 c2 : Bytes) (h : GetCoinbaseParts height value wc text wallet minerID = .ok (c1, c2)) :
    c1 = makeCoinbase1 height text ∧ ∃ ot, c2 = makeCoinbase2 ot := by
  unfold GetCoinbaseParts at h
  dsimp only at h
  obtain ⟨ot, -, h⟩ := Res.bind_eq_ok.mp h
  rw [Res.pure_eq, Res.ok.injEq, Prod.mk.injEq] at h
  exact ⟨h.1.symm, ot, h.2.symm⟩

theorem varInt_small (k : Nat) (h : k < 0xfd) : VarInt (UInt64.ofNat k) = [UInt8.ofNat k] := by
  have hm : MinCompactSize k [UInt8.ofNat k] := ⟨Or.inl ⟨h, rfl⟩, fun b' hb => by rcases hb with ⟨_, rfl⟩ | ⟨_, rfl⟩ | ⟨_, rfl⟩ | ⟨_, rfl⟩ <;> simp⟩
  exact (minCompactSize_iff.mp hm).2.symm

theorem compact_small (n k : Nat) (hk : k < 0xfd) (count r s : Bytes) (hc : CompactSize n count) (h : UInt8.ofNat k :: r = count ++ s) : n = k ∧ r = s := by
  have hk' : (UInt8.ofNat k).toNat = k := by rw [UInt8.toNat_ofNat']; omega
  rcases hc with ⟨h1, rfl⟩ | ⟨h1, rfl⟩ | ⟨h1, rfl⟩ | ⟨h1, rfl⟩
  · simp only [List.cons_append, List.nil_append, List.cons.injEq] at h
    have := congrArg UInt8.toNat h.1
    rw [hk', UInt8.toNat_ofNat', Nat.mod_eq_of_lt (by omega)] at this
    exact ⟨this.symm, h.2⟩
  all_goals
    simp only [List.cons_append, List.cons.injEq] at h
    have := congrArg UInt8.toNat h.1
    rw [hk'] at this
    simp at this
    omega

/-- C102: the coinbase comes out as intended exactly if the two extra nonces have 12 bytes together. -/
theorem C102_iff (height : UInt32) (value : UInt64) (wc text wallet minerID e1 e2 d1 d2 lock sp c1 c2 : Bytes) (hw : NewP2PKHFromAddress wallet = .ok lock)
    (hp : GetCoinbaseParts height value wc text wallet minerID = .ok (c1, c2)) (h1 : HexStart e1 d1) (h2 : HexStart e2 d2)
    (hsz : wc.length + minerID.length + sp.length < 2 ^ 61) (hcap : (BuildCoinbase c1 c2 e1 e2).length + sp.length < 2 ^ 62) :
    Transaction.NewFromBytes ⟨BuildCoinbase c1 c2 e1 e2, sp⟩ = .ok (coinbaseTx height value wc text lock minerID e1 e2) ↔ d1.length + d2.length = 12 := by
  have q1 := (hexStart_iff _ _).mp h1
  have q2 := (hexStart_iff _ _).mp h2
  constructor
  · intro h
    obtain ⟨ci, bi, co, bo, n1, n2, -, -, e⟩ := (C35_accepts_iff _ _ hcap _).mp h
    obtain ⟨b1, b2, ⟨txid, count, scr, g1, g2, rfl, g4, g5, g6, g7⟩, rfl, rfl⟩ := n2
    rw [C102_concat c1 c2 e1 e2 d1 d2 h1 h2] at e
    obtain ⟨rfl, ot, rfl⟩ := coinbaseParts_eq _ _ _ _ _ _ _ _ hp
    have hscr : scr = coinbaseScript height text e1 e2 := by
      simp only [coinbaseInput, Option.some.injEq] at g5; exact g5.symm
    have hl : scr.length = 4 + min 84 text.length + (d1.length + d2.length) := by
      rw [hscr]
      simp only [coinbaseScript, List.length_cons, List.length_append, leBytes_length, List.length_take, q1, q2]; omega
    rw [makeCoinbase1_eq, varInt_small _ (by omega)] at e
    have hv : (coinbaseTx height value wc text lock minerID e1 e2).Version.toNat = 1 := rfl
    have hff : ([0xff, 0xff, 0xff, 0xff] : Bytes) = leBytes 4 0xffffffff := by decide +kernel
    rw [hv, hff] at e
    simp only [List.append_assoc, List.cons_append, List.nil_append] at e
    have e := List.append_cancel_left e
    obtain ⟨-, e⟩ := compact_small _ 1 (by omega) ci _ _ n1 e
    have e := (List.append_inj e (by simp [g1])).2
    have e := (List.append_inj e (by simp)).2
    obtain ⟨e, -⟩ := compact_small _ _ (by omega) count _ _ g2 e
    omega
  · intro h
    have hwc : IsHex wc := by
      by_contra hx
      have := (C59_failures height value wc text wallet minerID).1.mpr (Or.inr hx)
      rw [hp] at this; cases this
    obtain ⟨c1', c2', g1, g2, -⟩ := C59_coinbase height value wc text wallet minerID e1 e2 lock sp hw hwc (by rw [q1, q2]; exact h) hsz
    rw [hp] at g1
    simp only [Res.ok.injEq, Prod.mk.injEq] at g1
    rw [g1.1, g1.2]
    exact g2

/-- C102 (deviation): the length of the extra nonces is not checked. Whoever chooses the second one, which a pool takes from the miner, chooses the outputs of the coinbase: for any
outputs there is an extra nonce for which the result is a coinbase of the same height with these outputs, while the intended payments are buried in the script of one more output,
of value zero. -/
theorem C102_redirect (height : UInt32) (value : UInt64) (wc text wallet minerID e1 d1 c1 c2 : Bytes) (outs : List Output)
    (hp : GetCoinbaseParts height value wc text wallet minerID = .ok (c1, c2)) (h1 : HexStart e1 d1) (h12 : d1.length ≤ 12)
    (hsz : c2.length + (outs.map fun o => 17 + o.LockingScript.length).sum < 2 ^ 61) :
    ∃ e2 tx, Transaction.NewFromBytes (Slice.exact (BuildCoinbase c1 c2 e1 e2)) = .ok tx ∧ tx.IsCoinbase = true ∧
      tx.Outputs = outs ++ [⟨0, c2.take (c2.length - 4)⟩] ∧
      ∃ i scr, tx.Inputs = [i] ∧ i.UnlockingScript = some scr ∧ (0x03 :: (leBytes 3 height.toNat ++ text.take 84)) <+: scr := by
  obtain ⟨rfl, ot, rfl⟩ := coinbaseParts_eq _ _ _ _ _ _ _ _ hp
  have q1 := (hexStart_iff _ _).mp h1
  have hc2 : makeCoinbase2 ot = ([0xff, 0xff, 0xff, 0xff] ++ ot) ++ List.replicate 4 0 := by unfold makeCoinbase2; simp
  have ht : (makeCoinbase2 ot).take ((makeCoinbase2 ot).length - 4) = [0xff, 0xff, 0xff, 0xff] ++ ot := by
    rw [hc2, List.length_append, List.length_replicate, Nat.add_sub_cancel, List.take_left]
  rw [ht]
  generalize hbur : [0xff, 0xff, 0xff, 0xff] ++ ot = bur at *
  have hscrl : (0x03 :: (leBytes 3 height.toNat ++ text.take 84) ++ d1 ++ List.replicate (12 - d1.length) 0).length = 4 + min 84 text.length + 12 := by
    simp only [List.length_cons, List.length_append, leBytes_length, List.length_take, List.length_replicate]; omega
  let scr : Bytes := 0x03 :: (leBytes 3 height.toNat ++ text.take 84) ++ d1 ++ List.replicate (12 - d1.length) 0
  let tx : Transaction := {
    Version := 1, Locktime := 0,
    Inputs := [{ PreviousTxID := List.replicate 64 48, PreviousTxOutIndex := 0xffffffff, PreviousTxSatoshis := 0, PreviousTxScript := none, UnlockingScript := some scr, SequenceNumber := 0xffffffff }],
    Outputs := outs ++ [⟨0, bur⟩] }
  let d2 : Bytes := List.replicate (12 - d1.length) 0 ++ [0xff, 0xff, 0xff, 0xff] ++ VarInt (UInt64.ofNat (outs.length + 1)) ++ outs.flatMap Output.ToBytes ++ putUint64 0 ++
    VarInt (UInt64.ofNat bur.length)
  have hb : BuildCoinbase (makeCoinbase1 height text) (makeCoinbase2 ot) e1 (hexEncode d2) = tx.ToBytes := by
    rw [C102_concat _ _ e1 _ d1 d2 h1 ((hexStart_iff _ _).mpr (hexDecodeIgnore_encode _)), makeCoinbase1_eq, hc2, tx_toBytes_eq]
    have hz : (hexDecodeIgnore (List.replicate 64 48)).reverse = List.replicate 32 0 := by decide +kernel
    have hone : VarInt (UInt64.ofNat (0 + 1)) = [0x01] := by decide +kernel
    have hff : leBytes 4 0xffffffff = [0xff, 0xff, 0xff, 0xff] := by decide +kernel
    have hff' : putUint32 0xffffffff = [0xff, 0xff, 0xff, 0xff] := by decide +kernel
    have h0 : putUint32 0 = List.replicate 4 0 := by decide +kernel
    have hpv : putUint32 1 = leBytes 4 1 := by decide +kernel
    simp only [tx, d2, scr, List.flatMap_cons, List.flatMap_nil, input_toBytes_eq, hz, hone, List.length_cons, List.length_nil, List.flatMap_append, Option.getD_some, List.length_append,
      Output.ToBytes, hff', h0, hpv, List.append_nil]
    have hl2 : (leBytes 3 height.toNat).length + (text.take 84).length + 1 + d1.length + (List.replicate (12 - d1.length) (0 : UInt8)).length = 4 + min 84 text.length + 12 := by
      simp only [leBytes_length, List.length_take, List.length_replicate]; omega
    rw [hl2]
    simp [List.append_assoc]
  have hfl : (outs.flatMap Output.ToBytes).length ≤ (outs.map fun o => 17 + o.LockingScript.length).sum := by
    clear hsz hb
    induction outs with
    | nil => simp
    | cons o os ih =>
      have := VarInt_length_le (UInt64.ofNat o.LockingScript.length)
      simp only [List.flatMap_cons, List.length_append, List.map_cons, List.sum_cons, Output.ToBytes, putUint64_length] at ih ⊢
      omega
  have hol : outs.length ≤ (outs.map fun o => 17 + o.LockingScript.length).sum := by
    clear hsz hfl hb
    induction outs with
    | nil => simp
    | cons o os ih => simp only [List.length_cons, List.map_cons, List.sum_cons]; omega
  refine ⟨hexEncode d2, tx, ?_, ?_, rfl, _, scr, rfl, rfl, ?_⟩
  · rw [hb]
    have hw : wireTx tx = tx := by
      simp only [wireTx, tx, wireInput, List.map_cons, List.map_nil, Option.getD_some]
      congr 3
    have := C33_parse_serialise tx (sp := []) ?_ ?_
    · rw [hw] at this; exact this
    · intro i hi
      simp only [tx, List.mem_singleton] at hi
      subst hi
      show IsTxId (List.replicate 64 48)
      decide +kernel
    · rw [← hb, C102_concat _ _ e1 _ d1 d2 h1 ((hexStart_iff _ _).mpr (hexDecodeIgnore_encode _)), makeCoinbase1_eq, varInt_small _ (by omega)]
      have v1 := VarInt_length_le (UInt64.ofNat (outs.length + 1))
      have v2 := VarInt_length_le (UInt64.ofNat bur.length)
      simp only [List.length_append, List.length_cons, List.length_nil, leBytes_length, List.length_replicate, List.length_take, d2, putUint64_length]
      omega
  · simp [tx, Transaction.IsCoinbase, Transaction.zeroTxID]
  · exact ⟨d1 ++ List.replicate (12 - d1.length) 0, by simp [scr]⟩

/-- non-vacuity: parts, and extra nonces of 12 and of 13 bytes -/
example : (∃ c1 c2, GetCoinbaseParts 518847 2504275756 b!"6a24aa21a9ed" b!"/hello/" b!"1111111111111111111114oLvT2" [0x6a] = .ok (c1, c2)) ∧
    HexStart b!"0011223344556677" [0, 0x11, 0x22, 0x33, 0x44, 0x55, 0x66, 0x77] ∧ HexStart b!"deadbeef" [0xde, 0xad, 0xbe, 0xef] ∧ HexStart b!"deadbeef01x" [0xde, 0xad, 0xbe, 0xef, 1] := by
  refine ⟨?_, (hexStart_iff _ _).mpr (by decide), (hexStart_iff _ _).mpr (by decide), (hexStart_iff _ _).mpr (by decide)⟩
  have h : (GetCoinbaseParts 518847 2504275756 b!"6a24aa21a9ed" b!"/hello/" b!"1111111111111111111114oLvT2" [0x6a]).isOk := by decide +kernel
  rcases e : GetCoinbaseParts 518847 2504275756 b!"6a24aa21a9ed" b!"/hello/" b!"1111111111111111111114oLvT2" [0x6a] with ⟨c1, c2⟩ | m | _
  · exact ⟨c1, c2, rfl⟩
  · rw [e] at h; cases h
  · rw [e] at h; cases h

end Verif.Props
