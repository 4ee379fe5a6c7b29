import Verif.Lemmas.TxCodec
/-! # The serialiser against the wire grammar -/
namespace Verif
open Spec

/-! ## sequences -/

theorem isSeq_flatMap {α : Type} {P : α → Bytes → Prop} {f : α → Bytes} {xs : List α} (h : ∀ x ∈ xs, P x (f x)) : IsSeq P xs (xs.flatMap f) := by
  induction xs with
  | nil => rfl
  | cons x xs ih => exact ⟨f x, xs.flatMap f, h x (by simp), ih (fun y hy => h y (by simp [hy])), by simp⟩

theorem isSeq_map_flatMap {α β : Type} {P : β → Bytes → Prop} {f : α → Bytes} {g : α → β} {xs : List α} (h : ∀ x ∈ xs, P (g x) (f x)) :
    IsSeq P (xs.map g) (xs.flatMap f) := by
  induction xs with
  | nil => rfl
  | cons x xs ih => exact ⟨f x, xs.flatMap f, h x (by simp), ih (fun y hy => h y (by simp [hy])), by simp⟩

theorem isSeq_eq {α : Type} {P : α → Bytes → Prop} {f : α → Bytes} (h : ∀ x b, P x b → b = f x) {xs : List α} {b : Bytes} (hs : IsSeq P xs b) :
    b = xs.flatMap f := by
  induction xs generalizing b with
  | nil => exact hs
  | cons x xs ih =>
    obtain ⟨b1, b2, h1, h2, rfl⟩ := hs
    rw [h x b1 h1, ih h2]; simp

theorem isSeq_mem {α : Type} {P : α → Bytes → Prop} {xs : List α} {b : Bytes} (hs : IsSeq P xs b) : ∀ x ∈ xs, ∃ bx, P x bx := by
  induction xs generalizing b with
  | nil => simp
  | cons x xs ih =>
    obtain ⟨b1, b2, h1, h2, rfl⟩ := hs
    intro y hy
    rcases List.mem_cons.mp hy with rfl | hy
    · exact ⟨b1, h1⟩
    · exact ih h2 y hy

theorem isSeq_length {α : Type} {P : α → Bytes → Prop} {f : α → Bytes} (h : ∀ x b, P x b → (f x).length ≤ b.length ∧ ((f x).length = b.length → f x = b))
    {xs : List α} {b : Bytes} (hs : IsSeq P xs b) : (xs.flatMap f).length ≤ b.length ∧ ((xs.flatMap f).length = b.length → xs.flatMap f = b) := by
  induction xs generalizing b with
  | nil =>
    have : b = [] := hs
    subst this; simp
  | cons x xs ih =>
    obtain ⟨b1, b2, h1, h2, rfl⟩ := hs
    obtain ⟨p1, p2⟩ := h x b1 h1
    obtain ⟨q1, q2⟩ := ih h2
    simp only [List.flatMap_cons, List.length_append]
    refine ⟨by omega, fun e => ?_⟩
    rw [p2 (by omega), q2 (by omega)]

theorem isSeq_mono {α : Type} {P Q : α → Bytes → Prop} (h : ∀ x b, P x b → Q x b) {xs : List α} {b : Bytes} (hs : IsSeq P xs b) : IsSeq Q xs b := by
  induction xs generalizing b with
  | nil => exact hs
  | cons x xs ih =>
    obtain ⟨b1, b2, h1, h2, rfl⟩ := hs
    exact ⟨b1, b2, h x b1 h1, ih h2, rfl⟩

/-- `P` is prefix-free and determines what it encodes. -/
def PrefixFree {α : Type} (P : α → Bytes → Prop) : Prop :=
  ∀ x y a b s t, P x a → P y b → a ++ s = b ++ t → x = y ∧ a = b ∧ s = t

theorem isSeq_prefix_free {α : Type} {P : α → Bytes → Prop} (h : PrefixFree P) {xs : List α} : ∀ {ys : List α} {a b s t : Bytes},
    xs.length = ys.length → IsSeq P xs a → IsSeq P ys b → a ++ s = b ++ t → xs = ys ∧ a = b ∧ s = t := by
  induction xs with
  | nil =>
    intro ys a b s t hl ha hb he
    have : ys = [] := List.length_eq_zero_iff.mp hl.symm
    subst this
    have h1 : a = [] := ha
    have h2 : b = [] := hb
    subst h1 h2
    exact ⟨rfl, rfl, he⟩
  | cons x xs ih =>
    intro ys a b s t hl ha hb he
    cases ys with
    | nil => simp at hl
    | cons y ys =>
      obtain ⟨a1, a2, p1, p2, rfl⟩ := ha
      obtain ⟨b1, b2, q1, q2, rfl⟩ := hb
      rw [List.append_assoc, List.append_assoc] at he
      obtain ⟨rfl, rfl, he'⟩ := h x y a1 b1 _ _ p1 q1 he
      obtain ⟨rfl, rfl, rfl⟩ := ih (by simpa using hl) p2 q2 he'
      exact ⟨rfl, rfl, rfl⟩

theorem leBytes4_inj {v w : UInt32} {s t : Bytes} (h : leBytes 4 v.toNat ++ s = leBytes 4 w.toNat ++ t) : v = w ∧ s = t := by
  obtain ⟨h1, h2⟩ := List.append_inj h (by simp)
  exact ⟨putUint32_inj h1, h2⟩

theorem leBytes8_inj {v w : UInt64} {s t : Bytes} (h : leBytes 8 v.toNat ++ s = leBytes 8 w.toNat ++ t) : v = w ∧ s = t := by
  obtain ⟨h1, h2⟩ := List.append_inj h (by simp)
  exact ⟨putUint64_inj h1, h2⟩

theorem isInput_prefix_free : PrefixFree (IsInput CompactSize) := by
  rintro ⟨i1, i2, i3, i4, i5, i6⟩ ⟨j1, j2, j3, j4, j5, j6⟩ a b s t ⟨tx, c, sc, h1, h2, rfl, h3, h4, h5, h6⟩ ⟨tx', c', sc', h1', h2', rfl, h3', h4', h5', h6'⟩ he
  simp only at h3 h4 h5 h6 h3' h4' h5' h6' he
  subst h3 h4 h5 h6 h3' h4' h5' h6'
  simp only [List.append_assoc] at he
  obtain ⟨rfl, he1⟩ := List.append_inj he (by omega)
  obtain ⟨rfl, he2⟩ := leBytes4_inj he1
  obtain ⟨hl, rfl, he3⟩ := compactSize_prefix_free h2 h2' he2
  obtain ⟨rfl, he4⟩ := List.append_inj he3 hl
  obtain ⟨rfl, rfl⟩ := leBytes4_inj he4
  exact ⟨rfl, rfl, rfl⟩

theorem isOutput_prefix_free : PrefixFree (IsOutput CompactSize) := by
  rintro ⟨i1, i2⟩ ⟨j1, j2⟩ a b s t ⟨c, h2, rfl⟩ ⟨c', h2', rfl⟩ he
  simp only [List.append_assoc] at h2 h2' he
  obtain ⟨rfl, he2⟩ := leBytes8_inj he
  obtain ⟨hl, rfl, he3⟩ := compactSize_prefix_free h2 h2' he2
  obtain ⟨rfl, rfl⟩ := List.append_inj he3 hl
  exact ⟨rfl, rfl, rfl⟩

theorem isTx_prefix_free : PrefixFree (IsTx CompactSize) := by
  rintro ⟨v, ins, outs, lt⟩ ⟨v', ins', outs', lt'⟩ a b s t ⟨ci, bi, co, bo, h1, h2, h3, h4, rfl⟩ ⟨ci', bi', co', bo', h1', h2', h3', h4', rfl⟩ he
  simp only [List.append_assoc] at h1 h2 h3 h4 h1' h2' h3' h4' he
  obtain ⟨rfl, he1⟩ := leBytes4_inj he
  obtain ⟨hl, rfl, he2⟩ := compactSize_prefix_free h1 h1' he1
  obtain ⟨rfl, rfl, he3⟩ := isSeq_prefix_free isInput_prefix_free hl h2 h2' he2
  obtain ⟨hl', rfl, he4⟩ := compactSize_prefix_free h3 h3' he3
  obtain ⟨rfl, rfl, he5⟩ := isSeq_prefix_free isOutput_prefix_free hl' h4 h4' he4
  obtain ⟨rfl, rfl⟩ := leBytes4_inj he5
  exact ⟨rfl, rfl, rfl⟩

/-! ## hex case -/

theorem lower_hexChar : ∀ c : UInt8, (fromHexChar c).isSome → hexChar ((fromHexChar c).getD 0) = lowerChar c ∧ ((fromHexChar c).getD 0) < 16 := by
  apply forall_uint8; decide +kernel

theorem nibbles : ∀ x y : Fin 16, ((UInt8.ofNat x.val <<< 4 ||| UInt8.ofNat y.val) >>> 4 = UInt8.ofNat x.val) ∧ ((UInt8.ofNat x.val <<< 4 ||| UInt8.ofNat y.val) &&& 15 = UInt8.ofNat y.val) := by
  decide +kernel

theorem nibbles' (x y : UInt8) (hx : x < 16) (hy : y < 16) : (x <<< 4 ||| y) >>> 4 = x ∧ (x <<< 4 ||| y) &&& 15 = y := by
  have := nibbles ⟨x.toNat, by simpa [UInt8.lt_iff_toNat_lt] using hx⟩ ⟨y.toNat, by simpa [UInt8.lt_iff_toNat_lt] using hy⟩
  simpa using this

/-- Decoding and re-encoding a hex string gives it in lower case. -/
theorem hexEncode_decode {s : Bytes} (h : IsHex s) : hexEncode (hexDecodeIgnore s) = s.map lowerChar := by
  unfold hexDecodeIgnore
  induction s using hexDecode.induct with
  | case1 => rfl
  | case2 c v h1 => simp [IsHex] at h
  | case3 c h1 => simp [IsHex] at h
  | case4 a b rest x y h2 h1 ih =>
    have hr : IsHex rest := by
      refine ⟨by have := h.1; simp at this; omega, fun c hc => h.2 c (by simp [hc])⟩
    have la := lower_hexChar a (by simp [h1])
    have lb := lower_hexChar b (by simp [h2])
    rw [h1] at la; rw [h2] at lb
    simp only [Option.getD_some] at la lb
    obtain ⟨n1, n2⟩ := nibbles' x y la.2 lb.2
    simp only [hexDecode, h1, h2, hexEncode, n1, n2, la.1, lb.1, ih hr, List.map_cons]
  | case5 a b rest h1 =>
    exfalso
    have ha := h.2 a (by simp)
    have hb := h.2 b (by simp)
    obtain ⟨x, hx⟩ := Option.isSome_iff_exists.mp ha
    obtain ⟨y, hy⟩ := Option.isSome_iff_exists.mp hb
    exact h1 x y hx hy

theorem fromHexChar_isSome_iff : ∀ c : UInt8, (fromHexChar c).isSome ↔ (48 ≤ c ∧ c ≤ 57) ∨ (97 ≤ c ∧ c ≤ 102) ∨ (65 ≤ c ∧ c ≤ 70) := by
  apply forall_uint8; decide +kernel

theorem isTxId_iff {s : Bytes} : IsTxId s ↔ IsHex s ∧ s.length = 64 := by
  unfold IsTxId IsHex
  constructor
  · rintro ⟨h1, h2⟩
    exact ⟨⟨by omega, fun c hc => (fromHexChar_isSome_iff c).mpr (h2 c hc)⟩, h1⟩
  · rintro ⟨⟨_, h2⟩, h1⟩
    exact ⟨h1, fun c hc => (fromHexChar_isSome_iff c).mp (h2 c hc)⟩

/-! ## the serialiser -/

theorem inputsHelper_none (idx : Int) (k : Nat) (ins : List Input) : Transaction.inputsHelper idx none k ins = ins.flatMap (fun i => i.ToBytes false) := by
  induction ins generalizing k with
  | nil => rfl
  | cons i is ih => simp only [Transaction.inputsHelper, ih, List.flatMap_cons]; rfl

theorem tx_toBytes_eq (tx : Transaction) : tx.ToBytes =
    putUint32 tx.Version ++ VarInt (UInt64.ofNat tx.Inputs.length) ++ tx.Inputs.flatMap (fun i => i.ToBytes false) ++
      VarInt (UInt64.ofNat tx.Outputs.length) ++ tx.Outputs.flatMap Output.ToBytes ++ putUint32 tx.Locktime := by
  unfold Transaction.ToBytes Transaction.toBytesHelper
  rw [inputsHelper_none]

theorem input_toBytes_eq (i : Input) : i.ToBytes false =
    (hexDecodeIgnore i.PreviousTxID).reverse ++ putUint32 i.PreviousTxOutIndex ++
      (VarInt (UInt64.ofNat (i.UnlockingScript.getD []).length) ++ i.UnlockingScript.getD []) ++ putUint32 i.SequenceNumber := by
  unfold Input.ToBytes
  cases i.UnlockingScript <;> simp

theorem input_toBytes_isInput (i : Input) (ht : IsTxId i.PreviousTxID) (hs : (i.UnlockingScript.getD []).length < 2 ^ 64) :
    IsInput MinCompactSize (wireInput i) (i.ToBytes false) := by
  obtain ⟨hh, hl⟩ := isTxId_iff.mp ht
  have hlen := hexDecodeIgnore_length hh
  refine ⟨(hexDecodeIgnore i.PreviousTxID).reverse, _, i.UnlockingScript.getD [], by simp; omega, minCompactSize_iff.mpr ⟨hs, rfl⟩, ?_, ?_, rfl, rfl, rfl⟩
  · rw [input_toBytes_eq]; simp [wireInput, putUint32_eq]
  · rw [List.reverse_reverse, hexEncode_decode hh]; rfl

theorem output_toBytes_isOutput (o : Output) (hs : o.LockingScript.length < 2 ^ 64) : IsOutput MinCompactSize o o.ToBytes :=
  ⟨_, minCompactSize_iff.mpr ⟨hs, rfl⟩, rfl⟩

theorem output_length (o : Output) : o.LockingScript.length ≤ o.ToBytes.length := by simp [Output.ToBytes]; omega
theorem input_length (i : Input) : (i.UnlockingScript.getD []).length ≤ (i.ToBytes false).length := by rw [input_toBytes_eq]; simp; omega

theorem flatMap_length_ge {α : Type} (f : α → Bytes) (xs : List α) (x : α) (h : x ∈ xs) : (f x).length ≤ (xs.flatMap f).length := by
  induction xs with
  | nil => simp at h
  | cons y ys ih =>
    simp only [List.flatMap_cons, List.length_append]
    rcases List.mem_cons.mp h with rfl | h
    · omega
    · have := ih h; omega

theorem flatMap_length_ge' {α : Type} (f : α → Bytes) (hf : ∀ x, 1 ≤ (f x).length) (xs : List α) : xs.length ≤ (xs.flatMap f).length := by
  induction xs with
  | nil => simp
  | cons y ys ih =>
    have := hf y
    simp only [List.flatMap_cons, List.length_append, List.length_cons]
    omega

/-- Serialising a transaction with proper txids gives the minimal wire encoding of its wire view. -/
theorem tx_toBytes_isTx (tx : Transaction) (ht : ∀ i ∈ tx.Inputs, IsTxId i.PreviousTxID) (hsz : tx.ToBytes.length < 2 ^ 62) :
    IsTx MinCompactSize (wireTx tx) tx.ToBytes := by
  rw [tx_toBytes_eq] at hsz
  simp only [List.length_append, putUint32_length] at hsz
  have hi : ∀ i ∈ tx.Inputs, (i.UnlockingScript.getD []).length < 2 ^ 64 := fun i h => by
    have := flatMap_length_ge (fun i => i.ToBytes false) tx.Inputs i h
    have := input_length i
    omega
  have ho : ∀ o ∈ tx.Outputs, o.LockingScript.length < 2 ^ 64 := fun o h => by
    have := flatMap_length_ge Output.ToBytes tx.Outputs o h
    have := output_length o
    omega
  have hci : tx.Inputs.length < 2 ^ 64 := by
    have := flatMap_length_ge' (fun i => i.ToBytes false) (fun i => by rw [input_toBytes_eq]; simp; omega) tx.Inputs
    omega
  have hco : tx.Outputs.length < 2 ^ 64 := by
    have := flatMap_length_ge' Output.ToBytes (fun o => by simp [Output.ToBytes]; omega) tx.Outputs
    omega
  refine ⟨_, _, _, _, minCompactSize_iff.mpr ⟨by simpa [wireTx] using hci, rfl⟩, isSeq_map_flatMap (fun i h => input_toBytes_isInput i (ht i h) (hi i h)),
    minCompactSize_iff.mpr ⟨hco, rfl⟩, isSeq_flatMap (fun o h => output_toBytes_isOutput o (ho o h)), ?_⟩
  rw [tx_toBytes_eq]
  simp [wireTx, putUint32_eq]

theorem isInput_min_eq (i : Input) (b : Bytes) (h : IsInput MinCompactSize i b) : b = i.ToBytes false := by
  obtain ⟨txid, c, sc, h1, h2, rfl, h3, h4, h5, h6⟩ := h
  rw [input_toBytes_eq, h3, h4, (minCompactSize_iff.mp h2).2]
  simp [putUint32_eq]

theorem isOutput_min_eq (o : Output) (b : Bytes) (h : IsOutput MinCompactSize o b) : b = o.ToBytes := by
  obtain ⟨c, h2, rfl⟩ := h
  rw [(minCompactSize_iff.mp h2).2]
  simp [Output.ToBytes, putUint64_eq]

theorem isTx_min_eq (tx : Transaction) (b : Bytes) (h : IsTx MinCompactSize tx b) : b = tx.ToBytes := by
  obtain ⟨ci, bi, co, bo, h1, h2, h3, h4, rfl⟩ := h
  rw [tx_toBytes_eq, (minCompactSize_iff.mp h1).2, (minCompactSize_iff.mp h3).2, isSeq_eq isInput_min_eq h2, isSeq_eq isOutput_min_eq h4]
  simp [putUint32_eq]

theorem isInput_mono {i : Input} {b : Bytes} (h : IsInput MinCompactSize i b) : IsInput CompactSize i b := by
  obtain ⟨txid, c, sc, h1, h2, h3⟩ := h
  exact ⟨txid, c, sc, h1, h2.1, h3⟩

theorem isOutput_mono {o : Output} {b : Bytes} (h : IsOutput MinCompactSize o b) : IsOutput CompactSize o b := by
  obtain ⟨c, h2, h3⟩ := h
  exact ⟨c, h2.1, h3⟩

theorem isTx_mono {tx : Transaction} {b : Bytes} (h : IsTx MinCompactSize tx b) : IsTx CompactSize tx b := by
  obtain ⟨ci, bi, co, bo, h1, h2, h3, h4, h5⟩ := h
  exact ⟨ci, bi, co, bo, h1.1, isSeq_mono (fun _ _ => isInput_mono) h2, h3.1, isSeq_mono (fun _ _ => isOutput_mono) h4, h5⟩

theorem isInput_length (i : Input) (b : Bytes) (h : IsInput CompactSize i b) :
    (i.ToBytes false).length ≤ b.length ∧ ((i.ToBytes false).length = b.length → i.ToBytes false = b) := by
  obtain ⟨txid, c, sc, h1, h2, rfl, h3, h4, h5, h6⟩ := h
  obtain ⟨m1, m2⟩ := compactSize_min_length h2
  rw [input_toBytes_eq, h3, h4]
  simp only [Option.getD_some, hexDecodeIgnore_encode, List.reverse_reverse, List.length_append, putUint32_length, leBytes_length]
  refine ⟨by omega, fun e => ?_⟩
  rw [← m2.mp (by omega)]
  simp [putUint32_eq]

theorem isOutput_length (o : Output) (b : Bytes) (h : IsOutput CompactSize o b) :
    o.ToBytes.length ≤ b.length ∧ (o.ToBytes.length = b.length → o.ToBytes = b) := by
  obtain ⟨c, h2, rfl⟩ := h
  obtain ⟨m1, m2⟩ := compactSize_min_length h2
  simp only [Output.ToBytes, List.length_append, putUint64_length, leBytes_length]
  refine ⟨by omega, fun e => ?_⟩
  rw [← m2.mp (by omega)]
  simp [putUint64_eq]

theorem isTx_length (tx : Transaction) (b : Bytes) (h : IsTx CompactSize tx b) :
    tx.ToBytes.length ≤ b.length ∧ (tx.ToBytes.length = b.length → tx.ToBytes = b) := by
  obtain ⟨ci, bi, co, bo, h1, h2, h3, h4, rfl⟩ := h
  obtain ⟨m1, m2⟩ := compactSize_min_length h1
  obtain ⟨n1, n2⟩ := compactSize_min_length h3
  obtain ⟨p1, p2⟩ := isSeq_length isInput_length h2
  obtain ⟨q1, q2⟩ := isSeq_length isOutput_length h4
  rw [tx_toBytes_eq]
  simp only [List.length_append, putUint32_length, leBytes_length]
  refine ⟨by omega, fun e => ?_⟩
  rw [← m2.mp (by omega), ← n2.mp (by omega), p2 (by omega), q2 (by omega)]
  simp [putUint32_eq]

/-- The wire view of a parsed transaction is itself. -/
theorem isInput_wire {i : Input} {b : Bytes} (h : IsInput CompactSize i b) : wireInput i = i ∧ IsTxId i.PreviousTxID := by
  obtain ⟨txid, c, sc, h1, h2, rfl, h3, h4, h5, h6⟩ := h
  have hx := isHex_encode txid.reverse
  obtain ⟨i1, i2, i3, i4, i5, i6⟩ := i
  simp only at h3 h4 h5 h6
  subst h3 h4 h5 h6
  refine ⟨?_, isTxId_iff.mpr ⟨hx, by simp [h1]⟩⟩
  have := hexEncode_decode hx
  rw [hexDecodeIgnore_encode] at this
  simp [wireInput, ← this]

theorem isTx_wire {tx : Transaction} {b : Bytes} (h : IsTx CompactSize tx b) : wireTx tx = tx ∧ ∀ i ∈ tx.Inputs, IsTxId i.PreviousTxID := by
  obtain ⟨ci, bi, co, bo, h1, h2, h3, h4, rfl⟩ := h
  have hm := isSeq_mem h2
  refine ⟨?_, fun i hi => (isInput_wire (hm i hi).choose_spec).2⟩
  obtain ⟨v, ins, outs, lt⟩ := tx
  simp only [wireTx, Transaction.mk.injEq, true_and, and_true]
  conv_rhs => rw [← List.map_id ins]
  apply List.map_congr_left
  intro i hi
  exact (isInput_wire (hm i hi).choose_spec).1

end Verif
