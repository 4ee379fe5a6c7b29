import Verif.Spec.TxHistory
import Verif.Props.Tx
/-!
# C39–C42: coinbase test, totals, building histories, cleared inputs
-/
namespace Verif.Props
open Verif Spec

attribute [local irreducible] wrap64 intOfUint64

/-! ## C39 -/

/-- C39, exact set on which `IsCoinbase` holds: one input with zero txid whose index *or sequence* is 0xffffffff. -/
theorem C39_isCoinbase_iff (tx : Transaction) :
    tx.IsCoinbase = true ↔ ∃ i, tx.Inputs = [i] ∧ i.PreviousTxID = List.replicate 64 48 ∧
      (i.PreviousTxOutIndex = 0xffffffff ∨ i.SequenceNumber = 0xffffffff) := by
  unfold Transaction.IsCoinbase
  rw [show Transaction.zeroTxID = List.replicate 64 48 from rfl]
  generalize List.replicate 64 (48 : UInt8) = z
  rcases tx with ⟨v, _ | ⟨i, _ | ⟨j, is⟩⟩, outs, lt⟩
  · simp
  · by_cases h : i.PreviousTxID = z <;> simp [h]
  · simp

/-- C39, true half: every coinbase transaction is recognised; and the answer is right for every transaction whose only input is non-final or has
a non-zero txid or has the null outpoint. Missing: final inputs with a zero txid, see `C39_violation`. -/
theorem C39_isCoinbase_on_domain (tx : Transaction) :
    ((∃ i, tx.Inputs = [i] ∧ IsNullOutpoint i) → tx.IsCoinbase = true) ∧
    ((∀ i ∈ tx.Inputs, i.SequenceNumber ≠ 0xffffffff) → (tx.IsCoinbase = true ↔ ∃ i, tx.Inputs = [i] ∧ IsNullOutpoint i)) := by
  have hidx : ∀ v : UInt32, v.toNat = 2 ^ 32 - 1 ↔ v = 0xffffffff := by
    intro v; rw [← UInt32.toNat_inj]; rfl
  refine ⟨?_, ?_⟩
  · rintro ⟨i, hi, h1, h2⟩
    exact (C39_isCoinbase_iff tx).mpr ⟨i, hi, h1, Or.inl ((hidx _).mp h2)⟩
  · intro hs
    rw [C39_isCoinbase_iff]
    constructor
    · rintro ⟨i, hi, h1, h2 | h2⟩
      · exact ⟨i, hi, h1, (hidx _).mpr h2⟩
      · exact absurd h2 (hs i (by simp [hi]))
    · rintro ⟨i, hi, h1, h2⟩
      exact ⟨i, hi, h1, Or.inl ((hidx _).mp h2)⟩

/-- C39 is violated: whatever the index, one final input with a zero txid is called a coinbase. -/
theorem C39_violation (tx : Transaction) (i : Input) (hi : tx.Inputs = [i]) (ht : i.PreviousTxID = List.replicate 64 48) (hs : i.SequenceNumber = 0xffffffff)
    (hx : i.PreviousTxOutIndex ≠ 0xffffffff) : tx.IsCoinbase = true ∧ ¬ IsNullOutpoint i := by
  refine ⟨(C39_isCoinbase_iff tx).mpr ⟨i, hi, ht, Or.inr hs⟩, ?_⟩
  rintro ⟨_, h2⟩
  exact hx (by rw [← UInt32.toNat_inj]; exact h2)

example : ({ Transaction.New with Inputs := [{ Input.New with PreviousTxID := List.replicate 64 48, PreviousTxOutIndex := 5 }] } : Transaction).IsCoinbase = true := by
  decide +kernel

/-! ## C40 -/

theorem foldl_sats (outs : List Output) (a : UInt64) :
    (outs.foldl (fun total o => total + o.Satoshis) a).toNat = (a.toNat + (outs.map (·.Satoshis.toNat)).sum) % 2 ^ 64 := by
  induction outs generalizing a with
  | nil => simp [Nat.mod_eq_of_lt a.toNat_lt]
  | cons o os ih =>
    simp only [List.foldl_cons, ih, UInt64.toNat_add, List.map_cons, List.sum_cons]
    omega

/-- C40: the total is the sum of the amounts modulo 2^64, the sum itself when that is below 2^64, and is the same in every order. -/
theorem C40_total (tx : Transaction) :
    tx.GetTotalOutputSatoshis.toNat = (tx.Outputs.map (·.Satoshis.toNat)).sum % 2 ^ 64 ∧
    ((tx.Outputs.map (·.Satoshis.toNat)).sum < 2 ^ 64 → tx.GetTotalOutputSatoshis.toNat = (tx.Outputs.map (·.Satoshis.toNat)).sum) ∧
    (∀ outs, outs.Perm tx.Outputs → ({ tx with Outputs := outs } : Transaction).GetTotalOutputSatoshis = tx.GetTotalOutputSatoshis) := by
  have h : ∀ t : Transaction, t.GetTotalOutputSatoshis.toNat = (t.Outputs.map (·.Satoshis.toNat)).sum % 2 ^ 64 := by
    intro t; unfold Transaction.GetTotalOutputSatoshis; rw [foldl_sats]; simp
  refine ⟨h tx, fun hl => by rw [h, Nat.mod_eq_of_lt hl], fun outs hp => ?_⟩
  rw [← UInt64.toNat_inj, h, h]
  rw [(hp.map (fun o : Output => o.Satoshis.toNat)).sum_nat]

example : exTx.GetTotalOutputSatoshis = 1000 ∧ ({ exTx with Outputs := [⟨2 ^ 64 - 1, []⟩, ⟨3, []⟩] } : Transaction).GetTotalOutputSatoshis = 2 := by decide +kernel

/-! ## C41 -/

theorem isHexString_iff (s : Bytes) : IsHexString s ↔ IsHex s := by
  have key : ∀ c : UInt8, (decide ((48 ≤ c ∧ c ≤ 57) ∨ (97 ≤ c ∧ c ≤ 102) ∨ (65 ≤ c ∧ c ≤ 70))) = (fromHexChar c).isSome := by
    apply forall_uint8; decide +kernel
  unfold IsHexString IsHex
  refine and_congr Iff.rfl (forall_congr' fun c => forall_congr' fun _ => ?_)
  rw [← key c]; simp

/-- The receiver after a call and whether it succeeded; a failing call leaves the receiver alone (the Go code assigns to it only at the end). -/
def applyCall (tx : Transaction) : Call → Res (Transaction × Bool)
  | .addInput i => .ok (tx.AddInput i, true)
  | .fromUtxo t v s sats => match tx.From t v s sats with
    | .ok t => .ok (t, true)
    | .err _ => .ok (tx, false)
    | .panic => .panic
  | .addOutput o => .ok (tx.AddOutput o, true)
  | .payTo a sats => match tx.PayTo a sats with
    | .ok t => .ok (t, true)
    | .err _ => .ok (tx, false)
    | .panic => .panic

/-- A whole history of calls. -/
def applyCalls : Transaction → List Call → Res (Transaction × List Bool)
  | tx, [] => .ok (tx, [])
  | tx, c :: cs => do
    let (tx, b) ← applyCall tx c
    let (tx, bs) ← applyCalls tx cs
    pure (tx, b :: bs)

theorem p2pkhAddress_eq (a : Bytes) :
    (IsAddressLike a → NewP2PKHFromAddress a = .ok ([0x76, 0xa9, 0x14] ++ ((base58Decode a).drop 1).take 20 ++ [0x88, 0xac])) ∧
    (¬ IsAddressLike a → ∃ m, NewP2PKHFromAddress a = .err m) := by
  unfold IsAddressLike NewP2PKHFromAddress Address.NewFromString addressToPubKeyHashStr
  by_cases hl : (base58Decode a).length = 25
  swap
  · simp [hl]
  obtain ⟨v, r, hr⟩ : ∃ v r, base58Decode a = v :: r := by
    cases h : base58Decode a with
    | nil => simp [h] at hl
    | cons v r => exact ⟨v, r, rfl⟩
  rw [hr] at hl ⊢
  simp only [List.length_cons] at hl
  have hr24 : r.length = 24 := by omega
  have htl : (r.take 20).length = 20 := by simp [hr24]
  have hp : ∀ s : Script, AppendPushData s (r.take 20) = .ok (s ++ (0x14 :: r.take 20)) := by
    intro s
    generalize r.take 20 = h at htl
    unfold AppendPushData
    have : EncodeParts [h] = .ok (0x14 :: h) := by
      simp [EncodeParts, GetPushDataPrefix, htl]
    rw [this]; rfl
  by_cases hv : v = 0 ∨ v = 0x6f
  · have : (if v = 0 then Res.ok (hexEncode ((List.take ((v :: r).length - 4) (v :: r)).drop 1))
        else if v = 0x6f then Res.ok (hexEncode ((List.take ((v :: r).length - 4) (v :: r)).drop 1)) else Res.err "Address is not supported") = .ok (hexEncode (r.take 20)) := by
      have e : (List.take ((v :: r).length - 4) (v :: r)).drop 1 = r.take 20 := by simp [hr24]
      rw [e]
      rcases hv with h | h <;> simp [h]
    have e : (List.take ((v :: r).length - 4) (v :: r)).drop 1 = r.take 20 := by simp [hr24]
    rw [e] at this
    refine ⟨fun _ => ?_, fun h => absurd ⟨by simpa using hl, by simpa using hv⟩ h⟩
    simp only [List.length_cons, hl, ne_eq, not_true, if_false, List.getD_cons_zero]
    rw [show (v :: r).length = r.length + 1 from rfl, hl] at e
    simp only [e, this, Res.ok_bind, hexDecodeRes_encode, hp, Res.pure_eq]
    simp [AppendOpCode, Op.OpDUP, Op.OpHASH160, Op.OpEQUALVERIFY, Op.OpCHECKSIG]
  · refine ⟨fun h => absurd (by simpa using h.2) hv, fun _ => ?_⟩
    rw [not_or] at hv
    simp [hr24, hv.1, hv.2]

/-- One call: it never panics, succeeds exactly when well-formed, and adds exactly its inputs and outputs. -/
theorem C41_call (tx : Transaction) (c : Call) :
    applyCall tx c = .ok (if c.wellFormed then { tx with Inputs := tx.Inputs ++ c.ins, Outputs := tx.Outputs ++ c.outs } else tx, decide c.wellFormed) := by
  rcases c with i | ⟨t, v, s, sats⟩ | o | ⟨a, sats⟩
  · have : decide (Call.addInput i).wellFormed = true := decide_eq_true trivial
    rw [this]; simp [applyCall, Call.wellFormed, Call.ins, Call.outs, Transaction.AddInput]
  · simp only [applyCall, Call.wellFormed, Call.ins, Call.outs, Transaction.From, Script.NewFromHexString, isHexString_iff]
    by_cases h : IsHex s
    · simp [h, hexDecodeRes_isHex h, Transaction.AddInput]
    · obtain ⟨m, hm⟩ := hexDecodeRes_not_isHex h
      simp [h, hm]
  · have : decide (Call.addOutput o).wellFormed = true := decide_eq_true trivial
    rw [this]; simp [applyCall, Call.wellFormed, Call.ins, Call.outs, Transaction.AddOutput]
  · simp only [applyCall, Call.wellFormed, Call.ins, Call.outs, Transaction.PayTo, Output.NewP2PKHFromAddress]
    by_cases h : IsAddressLike a
    · rw [(p2pkhAddress_eq a).1 h]; simp [h, Transaction.AddOutput]
    · obtain ⟨m, hm⟩ := (p2pkhAddress_eq a).2 h
      simp [h, hm]

/-- C41: after any history of calls on any transaction, nothing panicked, exactly the well-formed calls succeeded, and the inputs and outputs are the old
ones followed by those of the successful calls in call order; version and locktime are kept. -/
theorem C41_history_from (tx : Transaction) (cs : List Call) :
    applyCalls tx cs = .ok ({ tx with Inputs := tx.Inputs ++ (cs.filter (decide ·.wellFormed)).flatMap Call.ins,
                                      Outputs := tx.Outputs ++ (cs.filter (decide ·.wellFormed)).flatMap Call.outs }, cs.map (decide ·.wellFormed)) := by
  induction cs generalizing tx with
  | nil => simp [applyCalls]
  | cons c cs ih =>
    simp only [applyCalls, C41_call, Res.ok_bind, ih]
    by_cases h : c.wellFormed <;> simp [h]

/-- C41 on `New()`: version 1, locktime 0, and the counts. -/
theorem C41_history (cs : List Call) :
    ∃ tx, applyCalls Transaction.New cs = .ok (tx, cs.map (decide ·.wellFormed)) ∧ tx.Version = 1 ∧ tx.Locktime = 0 ∧
      tx.Inputs = (cs.filter (decide ·.wellFormed)).flatMap Call.ins ∧ tx.Outputs = (cs.filter (decide ·.wellFormed)).flatMap Call.outs ∧
      tx.InputCount = (cs.filter (decide ·.wellFormed)).countP (fun c => match c with | .addInput _ => true | .fromUtxo .. => true | _ => false) ∧
      tx.OutputCount = (cs.filter (decide ·.wellFormed)).countP (fun c => match c with | .addOutput _ => true | .payTo .. => true | _ => false) := by
  refine ⟨_, C41_history_from _ cs, rfl, rfl, by simp [Transaction.New], by simp [Transaction.New], ?_, ?_⟩
  · simp only [Transaction.InputCount, Transaction.New, List.nil_append]
    generalize cs.filter (decide ·.wellFormed) = l
    induction l with
    | nil => rfl
    | cons c l ih => cases c <;> simp_all [Call.ins, Nat.add_comm]
  · simp only [Transaction.OutputCount, Transaction.New, List.nil_append]
    generalize cs.filter (decide ·.wellFormed) = l
    induction l with
    | nil => rfl
    | cons c l ih => cases c <;> simp_all [Call.outs, Nat.add_comm]

example : ([.fromUtxo b!"aa" 1 b!"76a9" 5, .fromUtxo b!"aa" 1 b!"7" 5, .payTo b!"1AdZmoAQUw4XCsCihukoHMvNWXcsd8jDN6" 9, .payTo b!"xx" 9] : List Call).map (decide ·.wellFormed) =
    [true, false, true, false] := by decide +kernel

/-! ## C42 -/

/-- What `ToBytesWithClearedInputs(index, s)` should be: the serialisation of the transaction in which every unlocking script is emptied, except the one at
`index`, which becomes `s`. -/
def clearedTx (tx : Transaction) (index : Int) (s : Bytes) : Transaction :=
  { tx with Inputs := tx.Inputs.mapIdx fun k i => { i with UnlockingScript := some (if (k : Int) = index then s else []) } }

theorem inputsHelper_none (index : Int) (k : Nat) (is : List Input) : Transaction.inputsHelper index none k is = is.flatMap (·.ToBytes false) := by
  induction is generalizing k with
  | nil => rfl
  | cons i is ih => simp [Transaction.inputsHelper, ih]

theorem inputsHelper_some (index : Int) (s : Bytes) (k : Nat) (is : List Input) :
    Transaction.inputsHelper index (some s) k is =
      (is.mapIdx fun j i => if ((k + j : Nat) : Int) = index then VarInt (UInt64.ofNat s.length) ++ s else i.ToBytes true).flatten := by
  induction is generalizing k with
  | nil => rfl
  | cons i is ih =>
    simp only [Transaction.inputsHelper, ih, List.mapIdx_cons, List.flatten_cons, Option.isSome_some, Nat.add_zero]
    congr 3
    funext j i
    rw [show k + 1 + j = k + (j + 1) by omega]

/-- C42, true part: without a script, and for an index that no input has, the result is the intended one. Missing: every other call, see `C42_violation`. -/
theorem C42_cleared_on_domain (tx : Transaction) (index : Int) (s : Bytes) :
    tx.ToBytesWithClearedInputs index none = tx.ToBytes ∧
    ((index < 0 ∨ (tx.Inputs.length : Int) ≤ index) → tx.ToBytesWithClearedInputs index (some s) = (clearedTx tx index s).ToBytes) := by
  refine ⟨?_, fun hx => ?_⟩
  · simp only [Transaction.ToBytesWithClearedInputs, Transaction.ToBytes, Transaction.toBytesHelper, inputsHelper_none]
  · simp only [Transaction.ToBytesWithClearedInputs, Transaction.ToBytes, Transaction.toBytesHelper, inputsHelper_none, inputsHelper_some, clearedTx,
      List.length_mapIdx]
    have : (tx.Inputs.mapIdx fun j i => if ((0 + j : Nat) : Int) = index then VarInt (UInt64.ofNat s.length) ++ s else i.ToBytes true).flatten =
        (tx.Inputs.mapIdx fun k i => ({ i with UnlockingScript := some (if (k : Int) = index then s else []) } : Input)).flatMap (·.ToBytes false) := by
      rw [List.flatMap_def]
      congr 1
      apply List.ext_getElem
      · simp
      intro j hj _
      simp only [List.length_mapIdx] at hj
      simp only [List.getElem_mapIdx, List.getElem_map]
      have hne : ¬ ((j : Int) = index) := by omega
      simp only [Nat.zero_add, hne, if_false]
      exact (C37_forms _ ⟨0, []⟩).2
    rw [this]

/-- C42, what the code does for an index in range: that input's outpoint and sequence number are dropped. -/
theorem C42_cleared_exact (tx : Transaction) (pre post : List Input) (i : Input) (hin : tx.Inputs = pre ++ i :: post) (s : Bytes) :
    tx.ToBytesWithClearedInputs pre.length (some s) =
      putUint32 tx.Version ++ VarInt (UInt64.ofNat tx.Inputs.length) ++ pre.flatMap (·.ToBytes true) ++ (VarInt (UInt64.ofNat s.length) ++ s) ++
      post.flatMap (·.ToBytes true) ++ VarInt (UInt64.ofNat tx.Outputs.length) ++ tx.Outputs.flatMap Output.ToBytes ++ putUint32 tx.Locktime := by
  simp only [Transaction.ToBytesWithClearedInputs, Transaction.toBytesHelper, inputsHelper_some]
  have h1 : ∀ (l : List Input) (k : Nat), (l.mapIdx fun j i => if ((k + j : Nat) : Int) = (pre.length : Int) then VarInt (UInt64.ofNat s.length) ++ s else i.ToBytes true) =
      l.mapIdx fun j i => if k + j = pre.length then VarInt (UInt64.ofNat s.length) ++ s else i.ToBytes true := by
    intro l k
    apply List.mapIdx_eq_mapIdx_iff.mpr
    intro j hj
    simp only [Nat.cast_inj]
  have h2 : ∀ (l : List Input) (f : Nat → Input → Bytes), (∀ j (h : j < l.length), f j l[j] = l[j].ToBytes true) → (l.mapIdx f).flatten = l.flatMap (·.ToBytes true) := by
    intro l f hf
    rw [List.flatMap_def]
    congr 1
    apply List.ext_getElem
    · simp
    · intro n h1 h2; simp at h1; simp [hf n h1]
  rw [h1, hin, List.mapIdx_append, List.mapIdx_cons, List.flatten_append, List.flatten_cons]
  rw [h2 pre _ (fun j hj => by simp; omega), h2 post _ (fun j hj => by simp)]
  simp

/-- C42 is violated for every transaction and every index in range: the result lacks the 40 bytes of the outpoint and the sequence number. -/
theorem C42_violation (tx : Transaction) (k : Nat) (hk : k < tx.Inputs.length) (ht : ∀ i ∈ tx.Inputs, IsTxId i.PreviousTxID) (s : Bytes) :
    (tx.ToBytesWithClearedInputs k (some s)).length + 40 = (clearedTx tx k s).ToBytes.length ∧
    tx.ToBytesWithClearedInputs k (some s) ≠ (clearedTx tx k s).ToBytes := by
  have hlen : (tx.ToBytesWithClearedInputs k (some s)).length + 40 = (clearedTx tx k s).ToBytes.length := by
    obtain ⟨pre, i, post, hin, hpre⟩ : ∃ pre i post, tx.Inputs = pre ++ i :: post ∧ pre.length = k :=
      ⟨tx.Inputs.take k, tx.Inputs[k], tx.Inputs.drop (k + 1), by simp, by simp; omega⟩
    subst hpre
    rw [C42_cleared_exact tx pre post i hin s]
    have hi := (isTxId_iff.mp (ht i (by simp [hin])))
    simp only [Transaction.ToBytes, Transaction.toBytesHelper, inputsHelper_none, clearedTx, List.length_mapIdx]
    rw [hin, List.mapIdx_append, List.mapIdx_cons, List.flatMap_append, List.flatMap_cons]
    have h3 : ∀ (l : List Input) (f : Nat → Input → Input), (∀ j (h : j < l.length), (f j l[j]).ToBytes false = l[j].ToBytes true) →
        (l.mapIdx f).flatMap (·.ToBytes false) = l.flatMap (·.ToBytes true) := by
      intro l f hf
      rw [List.flatMap_def, List.flatMap_def]
      congr 1
      apply List.ext_getElem
      · simp
      · intro n h1 h2; simp at h1; simp [hf n h1]
    rw [h3 pre _ (fun j hj => by
        have : ¬ ((j : Int) = (pre.length : Int)) := by omega
        rw [if_neg this]; exact ((C37_forms _ ⟨0, []⟩).2).symm),
      h3 post _ (fun j hj => by
        have : ¬ (((j + 1 + pre.length : Nat) : Int) = (pre.length : Int)) := by omega
        rw [if_neg this]; exact ((C37_forms _ ⟨0, []⟩).2).symm)]
    have hd : (hexDecodeIgnore i.PreviousTxID).length = 32 := by
      have := hexDecodeIgnore_length hi.1
      have := hi.2
      omega
    simp [Input.ToBytes, ReverseBytes_eq, hd, putUint32]
    omega
  refine ⟨hlen, fun h => ?_⟩
  rw [h] at hlen; omega

example : exTx.ToBytesWithClearedInputs 1 (some [1, 2]) ≠ (clearedTx exTx 1 [1, 2]).ToBytes ∧
    exTx.ToBytesWithClearedInputs 7 (some [1, 2]) = (clearedTx exTx 7 [1, 2]).ToBytes := by decide +kernel

end Verif.Props
