import Verif.Lemmas.TxBytes
import Verif.Props.Redeem
/-!
# C33–C38: transaction codecs

`hcap`-style hypotheses (`< 2^62`) say that the slice fits in memory; Go's `int` could not index it otherwise.
-/
namespace Verif.Props
open Verif Spec

attribute [local irreducible] wrap64 intOfUint64

/-! A small concrete transaction used in the examples: two inputs, two outputs. -/
def exTx : Transaction :=
  { Version := 2, Locktime := 7,
    Inputs := [
      { PreviousTxID := b!"00112233445566778899AABBCCDDEEFF00112233445566778899aabbccddeeff", PreviousTxOutIndex := 3, PreviousTxSatoshis := 55,
        PreviousTxScript := some [0x51], UnlockingScript := none, SequenceNumber := 0xfffffffe },
      { PreviousTxID := List.replicate 64 49, PreviousTxOutIndex := 0, PreviousTxSatoshis := 0, PreviousTxScript := none,
        UnlockingScript := some [1, 2, 3], SequenceNumber := 9 }],
    Outputs := [⟨1000, [0x76, 0xa9]⟩, ⟨0, []⟩] }

/-! ## C33 -/

/-- C33: parsing the serialisation of a transaction gives it back: version, inputs (txid in lower case, index, unlocking script, sequence), outputs
and locktime, whatever memory follows the slice. `wireTx` (Spec/TxFormat) only drops what is not on the wire. -/
theorem C33_parse_serialise (tx : Transaction) (ht : ∀ i ∈ tx.Inputs, IsTxId i.PreviousTxID) (sp : Bytes)
    (hcap : tx.ToBytes.length + sp.length < 2 ^ 62) :
    Transaction.NewFromBytes ⟨tx.ToBytes, sp⟩ = .ok (wireTx tx) :=
  (tx_parse_iff _ _ hcap _).mpr (isTx_mono (tx_toBytes_isTx tx ht (by omega)))

/-- C33 for hex strings, with any allocator rounding `extra`. -/
theorem C33_parse_serialise_string (tx : Transaction) (ht : ∀ i ∈ tx.Inputs, IsTxId i.PreviousTxID) (extra : Bytes)
    (hcap : tx.ToString.length + extra.length < 2 ^ 62) :
    Transaction.NewFromString extra tx.ToString = .ok (wireTx tx) := by
  unfold Transaction.NewFromString Transaction.ToString
  have h : hexDecodeSlice extra (hexEncode tx.ToBytes) = .ok ⟨tx.ToBytes, (hexEncode tx.ToBytes).drop tx.ToBytes.length ++ extra⟩ := by
    simp [hexDecodeSlice]
  rw [h, Res.ok_bind]
  apply C33_parse_serialise tx ht
  simp only [Transaction.ToString, hexEncode_length] at hcap
  simp only [List.length_append, List.length_drop, hexEncode_length]
  omega

example : (∀ i ∈ exTx.Inputs, IsTxId i.PreviousTxID) ∧ exTx.ToBytes.length = 115 ∧
    Transaction.NewFromBytes ⟨exTx.ToBytes, [1, 2, 3]⟩ = .ok (wireTx exTx) ∧ wireTx exTx ≠ exTx := by decide +kernel

/-! ## C34 -/

/-- C34: for an accepted byte string, re-serialising gives it back exactly when every count and script length in it is minimally encoded;
otherwise the result is strictly shorter; and in every case parsing the result gives the same transaction. -/
theorem C34_serialise_parse (b sp : Bytes) (hcap : b.length + sp.length < 2 ^ 62) (tx : Transaction)
    (h : Transaction.NewFromBytes ⟨b, sp⟩ = .ok tx) :
    (tx.ToBytes = b ↔ IsTx MinCompactSize tx b) ∧ (¬ IsTx MinCompactSize tx b → tx.ToBytes.length < b.length) ∧
    (∀ sp', tx.ToBytes.length + sp'.length < 2 ^ 62 → Transaction.NewFromBytes ⟨tx.ToBytes, sp'⟩ = .ok tx) := by
  have ht := (tx_parse_iff _ _ hcap _).mp h
  obtain ⟨hw, hid⟩ := isTx_wire ht
  obtain ⟨hl, heq⟩ := isTx_length tx b ht
  have hmin : IsTx MinCompactSize tx tx.ToBytes := by
    have := tx_toBytes_isTx tx hid (by omega)
    rwa [hw] at this
  refine ⟨⟨fun e => ?_, fun hm => (isTx_min_eq tx b hm).symm⟩, fun hn => ?_, fun sp' hc => ?_⟩
  · rw [← e]; exact hmin
  · rcases Nat.lt_or_ge tx.ToBytes.length b.length with hlt | hge
    · exact hlt
    · exact absurd (by rw [← heq (by omega)]; exact hmin) hn
  · have := C33_parse_serialise tx hid sp' hc
    rwa [hw] at this

/-- The two cases of C34 both occur: a coinbase-like transaction with a non-minimal output count is accepted and comes back two bytes shorter. -/
theorem C34_nonminimal_witness : ∃ tx, Transaction.NewFromBytes (Slice.exact [1, 0, 0, 0, 0, 0xfd, 0, 0, 9, 0, 0, 0]) = .ok tx ∧
    tx.ToBytes = [1, 0, 0, 0, 0, 0, 9, 0, 0, 0] :=
  ⟨⟨1, [], [], 9⟩, by decide +kernel, by decide +kernel⟩

/-! ## C35 -/

/-- C35 (a): the parser accepts exactly the byte strings of the grammar "version, counted inputs, counted outputs, 4-byte locktime, nothing else", whatever
memory lies behind the slice; in particular the result does not depend on that memory. -/
theorem C35_accepts_iff (b sp : Bytes) (hcap : b.length + sp.length < 2 ^ 62) (tx : Transaction) :
    Transaction.NewFromBytes ⟨b, sp⟩ = .ok tx ↔ IsTx CompactSize tx b := tx_parse_iff b sp hcap tx

/-- C35 (b): the accepted result does not depend on memory beyond the slice. -/
theorem C35_no_overread (b sp sp' : Bytes) (hcap : b.length + sp.length < 2 ^ 62) (hcap' : b.length + sp'.length < 2 ^ 62) (tx : Transaction)
    (h : Transaction.NewFromBytes ⟨b, sp⟩ = .ok tx) : Transaction.NewFromBytes ⟨b, sp'⟩ = .ok tx :=
  (tx_parse_iff _ _ hcap' _).mpr ((tx_parse_iff _ _ hcap _).mp h)

/-- C35 (c): no proper extension (hence no proper prefix) of an accepted string is accepted at all. -/
theorem C35_prefix_free (b e sp sp' : Bytes) (hcap : b.length + sp.length < 2 ^ 62) (hcap' : (b ++ e).length + sp'.length < 2 ^ 62) (tx tx' : Transaction)
    (h : Transaction.NewFromBytes ⟨b, sp⟩ = .ok tx) (h' : Transaction.NewFromBytes ⟨b ++ e, sp'⟩ = .ok tx') : e = [] ∧ tx = tx' := by
  obtain ⟨h1, h2, h3⟩ := isTx_prefix_free tx tx' b (b ++ e) e [] ((tx_parse_iff _ _ hcap _).mp h) ((tx_parse_iff _ _ hcap' _).mp h') (by simp)
  exact ⟨h3, h1⟩

/-- C35 (d): an accepted string has at least 10 bytes. -/
theorem C35_min_size (b sp : Bytes) (hcap : b.length + sp.length < 2 ^ 62) (tx : Transaction) (h : Transaction.NewFromBytes ⟨b, sp⟩ = .ok tx) :
    10 + 41 * tx.Inputs.length + 9 * tx.Outputs.length ≤ b.length := by
  obtain ⟨ci, bi, co, bo, h1, h2, h3, h4, rfl⟩ := (tx_parse_iff _ _ hcap _).mp h
  have hi : ∀ (xs : List Input) (b : Bytes), IsSeq (IsInput CompactSize) xs b → 41 * xs.length ≤ b.length := by
    intro xs
    induction xs with
    | nil => intro b _; simp
    | cons x xs ih =>
      rintro b ⟨b1, b2, ⟨t, c, s, q1, q2, rfl, _⟩, p2, rfl⟩
      have := ih b2 p2
      have := compactSize_length_pos q2
      simp only [List.length_append, List.length_cons, leBytes_length]; omega
  have ho : ∀ (xs : List Output) (b : Bytes), IsSeq (IsOutput CompactSize) xs b → 9 * xs.length ≤ b.length := by
    intro xs
    induction xs with
    | nil => intro b _; simp
    | cons x xs ih =>
      rintro b ⟨b1, b2, ⟨c, q2, rfl⟩, p2, rfl⟩
      have := ih b2 p2
      have := compactSize_length_pos q2
      simp only [List.length_append, List.length_cons, leBytes_length]; omega
  have := hi _ _ h2
  have := ho _ _ h4
  have := compactSize_length_pos h1
  have := compactSize_length_pos h3
  simp only [List.length_append, leBytes_length]; omega

example : ∃ tx, Transaction.NewFromBytes ⟨exTx.ToBytes, []⟩ = .ok tx ∧ (Transaction.NewFromBytes ⟨exTx.ToBytes ++ [0], []⟩).isErr = true ∧
    tx.Inputs.length = 2 := ⟨wireTx exTx, by decide +kernel, by decide +kernel, by decide +kernel⟩

/-! ## C36 -/

theorem input_short (d sp : Bytes) (h : d.length < 36) : ∃ m, Input.NewFromBytes ⟨d, sp⟩ = .err m := by
  unfold Input.NewFromBytes; rw [if_pos (by simpa [Slice.len] using h)]; exact ⟨_, rfl⟩

theorem output_short (d sp : Bytes) (h : d.length < 8) : ∃ m, Output.NewFromBytes ⟨d, sp⟩ = .err m := by
  unfold Output.NewFromBytes; rw [if_pos (by simpa [Slice.len] using h)]; exact ⟨_, rfl⟩

theorem sliceRange_panic {s : Slice} {lo hi : Int} (h : ¬ (0 ≤ lo ∧ lo ≤ hi ∧ hi ≤ (s.cap : Int))) : s.sliceRange lo hi = .panic := by
  unfold Slice.sliceRange; rw [if_neg h]

/-- `int` arithmetic of a length-prefixed script starting at `off`, followed by `k` bytes. -/
theorem stop_arith (off k cap : Nat) (l : UInt64) (hk : k ≤ 4) (hoff : off < 2 ^ 62) (hcap : cap < 2 ^ 62) :
    (off + l.toNat + k < 2 ^ 63 ∧ wrap64 ((off : Int) + intOfUint64 l) = ((off + l.toNat : Nat) : Int) ∧
      wrap64 (wrap64 ((off : Int) + intOfUint64 l) + k) = ((off + l.toNat + k : Nat) : Int)) ∨
    (2 ^ 63 ≤ off + l.toNat + k ∧ wrap64 (wrap64 ((off : Int) + intOfUint64 l) + k) = ((off + l.toNat + k : Nat) : Int) - 2 ^ 64 ∧
      ¬ (0 ≤ (off : Int) ∧ (off : Int) ≤ wrap64 ((off : Int) + intOfUint64 l) ∧ wrap64 ((off : Int) + intOfUint64 l) ≤ (cap : Int))) := by
  have hl64 := l.toNat_lt
  rcases intOfUint64_cases l with ⟨q1, q2⟩ | ⟨q1, q2⟩
  · rw [q2]
    generalize l.toNat = L at *
    clear q2 l
    by_cases hA : off + L < 2 ^ 63
    · rw [wrap64_eq (x := (off : Int) + (L : Int)) (by omega) (by omega)]
      by_cases hB : off + L + k < 2 ^ 63
      · left
        rw [wrap64_eq (x := (off : Int) + (L : Int) + k) (by omega) (by omega)]
        refine ⟨hB, by omega, by omega⟩
      · right
        rw [wrap64_ge (x := (off : Int) + (L : Int) + k) (by omega) (by omega)]
        refine ⟨by omega, by omega, by omega⟩
    · right
      rw [wrap64_ge (x := (off : Int) + (L : Int)) (by omega) (by omega), wrap64_eq (by omega) (by omega)]
      refine ⟨by omega, by omega, by omega⟩
  · rw [q2]
    generalize l.toNat = L at *
    clear q2 l
    right
    rw [wrap64_eq (x := (off : Int) + ((L : Int) - 2 ^ 64)) (by omega) (by omega), wrap64_eq (by omega) (by omega)]
    refine ⟨by omega, by omega, by omega⟩

/-- The tail of `input.NewFromBytes` after the length prefix panics exactly on wrapped end offsets. -/
theorem input_tail_panic (s : Slice) (l : UInt64) (off : Nat) (hoff : off < 2 ^ 62) (hcap : s.cap < 2 ^ 62) (m : String) (f : Slice → UInt32 → Input) :
    (if (s.len : Int) < wrap64 (wrap64 ((off : Int) + intOfUint64 l) + 4) then (Res.err m : Res (Input × Int))
     else do
        let scr ← s.sliceRange off (wrap64 ((off : Int) + intOfUint64 l))
        let rest ← s.sliceFrom (wrap64 ((off : Int) + intOfUint64 l))
        let seq ← getUint32 rest.data
        pure (f scr seq, wrap64 (wrap64 ((off : Int) + intOfUint64 l) + 4))) = .panic ↔
    2 ^ 63 ≤ off + l.toNat + 4 ∧ off + l.toNat + 4 ≤ 2 ^ 64 + s.len := by
  have hlc : s.len ≤ s.cap := by simp [Slice.len, Slice.cap]
  rcases stop_arith off 4 s.cap l (by omega) hoff hcap with ⟨h1, h2, h3⟩ | ⟨h1, h2, h3⟩
  · push_cast at h3
    rw [h3, h2]
    have hr : ¬ (2 ^ 63 ≤ off + l.toNat + 4 ∧ off + l.toNat + 4 ≤ 2 ^ 64 + s.len) := by omega
    rw [iff_false_intro hr, iff_false]
    by_cases hle : (s.len : Int) < (off : Int) + l.toNat + 4
    · rw [if_pos hle]; simp
    · rw [if_neg hle]
      have s1 := sliceRange_ok s off (off + l.toNat) (by omega) (by omega)
      have s2 := sliceFrom_ok s (off + l.toNat) (by omega)
      rw [s1, Res.ok_bind, s2, Res.ok_bind]
      unfold getUint32
      have hl : s.data.length = s.len := rfl
      rw [if_neg (by simp only [List.length_drop]; omega)]
      simp
  · push_cast at h2
    rw [h2]
    by_cases hle : (s.len : Int) < (off : Int) + l.toNat + 4 - 18446744073709551616
    · rw [if_pos hle]
      exact ⟨fun h => (nomatch h), fun h => by omega⟩
    · rw [if_neg hle, sliceRange_panic h3, Res.panic_bind]
      exact ⟨fun _ => by omega, fun _ => rfl⟩

/-- The same for `output.NewFromBytes`. -/
theorem output_tail_panic (s : Slice) (l : UInt64) (off : Nat) (hoff : off < 2 ^ 62) (hcap : s.cap < 2 ^ 62) (m : String) (f : Slice → Output) :
    (if (s.len : Int) < wrap64 ((off : Int) + intOfUint64 l) then (Res.err m : Res (Output × Int))
     else do
        let scr ← s.sliceRange off (wrap64 ((off : Int) + intOfUint64 l))
        pure (f scr, wrap64 ((off : Int) + intOfUint64 l))) = .panic ↔
    2 ^ 63 ≤ off + l.toNat ∧ off + l.toNat ≤ 2 ^ 64 + s.len := by
  have hlc : s.len ≤ s.cap := by simp [Slice.len, Slice.cap]
  have hw : wrap64 (wrap64 ((off : Int) + intOfUint64 l) + ((0 : Nat) : Int)) = wrap64 ((off : Int) + intOfUint64 l) := by
    have : -2 ^ 63 ≤ wrap64 ((off : Int) + intOfUint64 l) ∧ wrap64 ((off : Int) + intOfUint64 l) < 2 ^ 63 := by
      generalize (off : Int) + intOfUint64 l = x
      clear * -
      unfold wrap64; omega
    rw [wrap64_eq] <;> simp only [Nat.cast_zero, add_zero, this.1, this.2]
  rcases stop_arith off 0 s.cap l (by omega) hoff hcap with ⟨h1, h2, h3⟩ | ⟨h1, h2, h3⟩
  · rw [h2]
    have hr : ¬ (2 ^ 63 ≤ off + l.toNat ∧ off + l.toNat ≤ 2 ^ 64 + s.len) := by omega
    rw [iff_false_intro hr, iff_false]
    by_cases hle : (s.len : Int) < ((off + l.toNat : Nat) : Int)
    · rw [if_pos hle]; simp
    · rw [if_neg hle]
      have s1 := sliceRange_ok s off (off + l.toNat) (by omega) (by omega)
      rw [s1, Res.ok_bind]
      simp
  · rw [hw] at h2
    rw [h2] at h3 ⊢
    by_cases hle : (s.len : Int) < ((off + l.toNat + 0 : Nat) : Int) - 2 ^ 64
    · rw [if_pos hle]
      exact ⟨fun h => (nomatch h), fun h => by omega⟩
    · rw [if_neg hle, sliceRange_panic h3, Res.panic_bind]
      exact ⟨fun _ => by omega, fun _ => rfl⟩

/-- C36, exact panic domain of `input.NewFromBytes`: at least 36 bytes, and either the length prefix after them cannot be read (the slice ends there, or its
backing array does), or the announced script length makes the end offset reach 2^63 (modulo the slice length, beyond 2^64). -/
theorem C36_input_panic_iff (d sp : Bytes) (hcap : d.length + sp.length < 2 ^ 62) :
    Input.NewFromBytes ⟨d, sp⟩ = .panic ↔ 36 ≤ d.length ∧ (DecodeVarInt ⟨d.drop 36, sp⟩ = .panic ∨
      ∃ l size, DecodeVarInt ⟨d.drop 36, sp⟩ = .ok (l, size) ∧ 2 ^ 63 ≤ 36 + size + l.toNat + 4 ∧ 36 + size + l.toNat + 4 ≤ 2 ^ 64 + d.length) := by
  by_cases hlen : 36 ≤ d.length
  swap
  · obtain ⟨m, hm⟩ := input_short d sp (by omega)
    rw [hm]; simp [hlen]
  rw [and_iff_right hlen]
  obtain ⟨txid, d1, rfl, ht⟩ := exists_split 32 (by omega : 32 ≤ d.length)
  rw [List.length_append] at hlen
  obtain ⟨ix, rest, rfl, hi⟩ := exists_split 4 (by omega : 4 ≤ d1.length)
  have hdrop : (txid ++ (ix ++ rest)).drop 36 = rest := by
    rw [← List.append_assoc, List.drop_append, List.drop_of_length_le (by simp [ht, hi])]; simp [ht, hi]
  rw [hdrop, ← List.append_assoc, input_parse_head txid ix rest sp ht hi]
  rw [← List.append_assoc] at hcap
  have hdl : (txid ++ ix ++ rest).length = 36 + rest.length := by rw [List.length_append, List.length_append, ht, hi]
  rcases hv : DecodeVarInt ⟨rest, sp⟩ with ⟨l, size⟩ | m | _
  · obtain ⟨⟨hs1, hs9, hne⟩, hsplit⟩ := decodeVarInt_split hv
    rw [Res.ok_bind]
    have key := input_tail_panic ⟨txid ++ ix ++ rest, sp⟩ l (36 + size) (by omega) hcap "input length too short < 36 + script + 4"
      (fun scr seq => { PreviousTxID := hexEncode txid.reverse, PreviousTxOutIndex := UInt32.ofNat (leNat ix), PreviousTxSatoshis := 0, PreviousTxScript := none, UnlockingScript := some scr.data, SequenceNumber := seq })
    simp only [Nat.cast_add, Nat.cast_ofNat] at key
    refine key.trans ⟨fun h => Or.inr ⟨l, size, rfl, h⟩, ?_⟩
    rintro (h | ⟨l', s', e, h⟩)
    · cases h
    · simp only [Res.ok.injEq, Prod.mk.injEq] at e
      obtain ⟨rfl, rfl⟩ := e; exact h
  · have hcons : rest = [] ∨ ∃ b0 r, rest = b0 :: r := by cases rest <;> simp
    rcases hcons with rfl | ⟨b0, r, rfl⟩
    · rw [decodeVarInt_nil] at hv; cases hv
    · rw [decodeVarInt_cons] at hv; split at hv <;> cases hv
  · rw [Res.panic_bind]
    exact ⟨fun _ => Or.inl rfl, fun _ => rfl⟩

/-- C36, exact panic domain of `output.NewFromBytes`. -/
theorem C36_output_panic_iff (d sp : Bytes) (hcap : d.length + sp.length < 2 ^ 62) :
    Output.NewFromBytes ⟨d, sp⟩ = .panic ↔ 8 ≤ d.length ∧ (DecodeVarInt ⟨d.drop 8, sp⟩ = .panic ∨
      ∃ l size, DecodeVarInt ⟨d.drop 8, sp⟩ = .ok (l, size) ∧ 2 ^ 63 ≤ 8 + size + l.toNat ∧ 8 + size + l.toNat ≤ 2 ^ 64 + d.length) := by
  by_cases hlen : 8 ≤ d.length
  swap
  · obtain ⟨m, hm⟩ := output_short d sp (by omega)
    rw [hm]; simp [hlen]
  rw [and_iff_right hlen]
  obtain ⟨st, rest, rfl, ht⟩ := exists_split 8 hlen
  have hdrop : (st ++ rest).drop 8 = rest := by
    rw [List.drop_append, List.drop_of_length_le (by simp [ht])]; simp [ht]
  rw [hdrop, output_parse_head st rest sp ht]
  have hdl : (st ++ rest).length = 8 + rest.length := by rw [List.length_append, ht]
  rcases hv : DecodeVarInt ⟨rest, sp⟩ with ⟨l, size⟩ | m | _
  · obtain ⟨⟨hs1, hs9, hne⟩, hsplit⟩ := decodeVarInt_split hv
    rw [Res.ok_bind]
    have key := output_tail_panic ⟨st ++ rest, sp⟩ l (8 + size) (by omega) hcap "output length too short < 8 + script"
      (fun scr => { Satoshis := UInt64.ofNat (leNat st), LockingScript := scr.data })
    simp only [Nat.cast_add, Nat.cast_ofNat] at key
    refine key.trans ⟨fun h => Or.inr ⟨l, size, rfl, h⟩, ?_⟩
    rintro (h | ⟨l', s', e, h⟩)
    · cases h
    · simp only [Res.ok.injEq, Prod.mk.injEq] at e
      obtain ⟨rfl, rfl⟩ := e; exact h
  · have hcons : rest = [] ∨ ∃ b0 r, rest = b0 :: r := by cases rest <;> simp
    rcases hcons with rfl | ⟨b0, r, rfl⟩
    · rw [decodeVarInt_nil] at hv; cases hv
    · rw [decodeVarInt_cons] at hv; split at hv <;> cases hv
  · rw [Res.panic_bind]
    exact ⟨fun _ => Or.inl rfl, fun _ => rfl⟩

/-- C36, true part for transactions: a complete version/inputs/outputs body followed by anything (a missing, short or overlong locktime, trailing
garbage) gives a value or an error, never a panic, once there are 10 bytes; and fewer than 10 bytes always give an error. Missing: strings that end
inside the body, see `C36_violation_witness`. -/
theorem C36_no_panic_complete_body (tx : Transaction) (b : Bytes) (hb : IsTx CompactSize tx b) (e sp : Bytes) (n : Nat) (hn : n ≤ 4) (hten : 10 ≤ (b.take (b.length - n) ++ e).length)
    (hcap : (b.take (b.length - n) ++ e).length + sp.length < 2 ^ 62) : Transaction.NewFromBytes ⟨b.take (b.length - n) ++ e, sp⟩ ≠ .panic := by
  obtain ⟨ci, bi, co, bo, h1, h2, h3, h4, rfl⟩ := hb
  have hx : (leBytes 4 tx.Version.toNat ++ ci ++ bi ++ co ++ bo ++ leBytes 4 tx.Locktime.toNat).take
      ((leBytes 4 tx.Version.toNat ++ ci ++ bi ++ co ++ bo ++ leBytes 4 tx.Locktime.toNat).length - n) ++ e =
      leBytes 4 tx.Version.toNat ++ ci ++ bi ++ co ++ bo ++ ((leBytes 4 tx.Locktime.toNat).take (4 - n) ++ e) := by
    rw [List.length_append, leBytes_length, Nat.add_sub_assoc hn, List.take_length_add_append]
    simp
  rw [hx] at hten hcap ⊢
  rw [tx_parse_body _ _ _ h1 h2 h3 h4 _ _ hten hcap]
  split
  · simp
  · rename_i h4'
    unfold getUint32
    rw [if_neg (by omega)]
    simp

example : IsTx CompactSize (wireTx exTx) exTx.ToBytes :=
  (C35_accepts_iff _ [] (by decide +kernel) _).mp (C33_parse_serialise exTx (by decide +kernel) [] (by decide +kernel))

theorem C36_short_error (b sp : Bytes) (h : b.length < 10) : (Transaction.NewFromBytes ⟨b, sp⟩).isErr := by
  unfold Transaction.NewFromBytes; rw [if_pos (by simpa [Slice.len] using h)]; rfl

/-- C36 is violated: ten bytes announcing 0xffffffffffffffff inputs run off the slice, an input of exactly 36 bytes, an output of exactly 8 bytes, and a script
length of 2^64-1 all panic. -/
theorem C36_violation_witness :
    Transaction.NewFromBytes (Slice.exact [1, 0, 0, 0, 0xff, 1, 0, 0, 0, 0]) = .panic ∧
    Input.NewFromBytes (Slice.exact (List.replicate 36 0)) = .panic ∧
    Output.NewFromBytes (Slice.exact (List.replicate 8 0)) = .panic ∧
    Output.NewFromBytes (Slice.exact (List.replicate 17 0xff)) = .panic ∧
    Transaction.NewFromBytes (Slice.exact ([1, 0, 0, 0, 1] ++ List.replicate 36 0)) = .panic := by decide +kernel

/-! ## C37 -/

/-- C37 (a): the input codec. -/
theorem C37_input_codec (i : Input) (ht : IsTxId i.PreviousTxID) (rest sp : Bytes) (hcap : (i.ToBytes false ++ rest).length + sp.length < 2 ^ 62) :
    Input.NewFromBytes ⟨i.ToBytes false ++ rest, sp⟩ = .ok (wireInput i, ((i.ToBytes false).length : Int)) := by
  have := input_length i
  simp only [List.length_append] at hcap
  exact (input_parse_iff _ _ (by simpa using hcap) _ _).mpr ⟨_, rest, rfl, isInput_mono (input_toBytes_isInput i ht (by omega)), rfl⟩

/-- C37 (b): the output codec. -/
theorem C37_output_codec (o : Output) (rest sp : Bytes) (hcap : (o.ToBytes ++ rest).length + sp.length < 2 ^ 62) :
    Output.NewFromBytes ⟨o.ToBytes ++ rest, sp⟩ = .ok (o, (o.ToBytes.length : Int)) := by
  have := output_length o
  simp only [List.length_append] at hcap
  exact (output_parse_iff _ _ (by simpa using hcap) _ _).mpr ⟨_, rest, rfl, isOutput_mono (output_toBytes_isOutput o (by omega)), rfl⟩

/-- C37 (c): both parsers accept exactly the grammar, and report the number of bytes used. -/
theorem C37_parsers_iff (d sp : Bytes) (hcap : d.length + sp.length < 2 ^ 62) :
    (∀ i n, Input.NewFromBytes ⟨d, sp⟩ = .ok (i, n) ↔ ∃ e rest, d = e ++ rest ∧ IsInput CompactSize i e ∧ n = (e.length : Int)) ∧
    (∀ o n, Output.NewFromBytes ⟨d, sp⟩ = .ok (o, n) ↔ ∃ e rest, d = e ++ rest ∧ IsOutput CompactSize o e ∧ n = (e.length : Int)) :=
  ⟨input_parse_iff d sp hcap, output_parse_iff d sp hcap⟩

/-- C37 (d): the signature-hash form of an output is its serialisation; a cleared input is the input with an empty script. -/
theorem C37_forms (i : Input) (o : Output) :
    o.GetBytesForSigHash = o.ToBytes ∧ i.ToBytes true = { i with UnlockingScript := some [] }.ToBytes false := by
  refine ⟨rfl, ?_⟩
  simp [Input.ToBytes, VarInt]

example : Input.NewFromBytes ⟨(exTx.Inputs.getD 0 Input.New).ToBytes false ++ [7, 7], []⟩ = .ok (wireInput (exTx.Inputs.getD 0 Input.New), 41) ∧
    Output.NewFromBytes ⟨(⟨1000, [0x76, 0xa9]⟩ : Output).ToBytes ++ [7, 7], []⟩ = .ok (⟨1000, [0x76, 0xa9]⟩, 11) := by decide +kernel

/-! ## C38 -/

theorem hexEncode_lower (b : Bytes) : ∀ c ∈ hexEncode b, (48 ≤ c ∧ c ≤ 57) ∨ (97 ≤ c ∧ c ≤ 102) := by
  have key : ∀ x : UInt8, (fun c : UInt8 => ((48 ≤ c ∧ c ≤ 57) ∨ (97 ≤ c ∧ c ≤ 102) : Bool)) (hexChar (x >>> 4)) = true ∧
      (fun c : UInt8 => ((48 ≤ c ∧ c ≤ 57) ∨ (97 ≤ c ∧ c ≤ 102) : Bool)) (hexChar (x &&& 15)) = true := by
    apply forall_uint8; decide +kernel
  induction b with
  | nil => simp [hexEncode]
  | cons x xs ih =>
    intro c hc
    simp only [hexEncode, List.mem_cons] at hc
    rcases hc with rfl | rfl | hc
    · simpa using (key x).1
    · simpa using (key x).2
    · exact ih c hc

/-- C38 (a): the id is the reversed double SHA256 of the serialisation, as 64 lower-case hex digits, and depends only on the serialisation. -/
theorem C38_txid_form (H : HashFns) (tx : Transaction) :
    tx.GetTxID H = hexEncode (H.sha256 (H.sha256 tx.ToBytes)).reverse ∧ (tx.GetTxID H).length = 64 ∧
    ∀ c ∈ tx.GetTxID H, (48 ≤ c ∧ c ≤ 57) ∨ (97 ≤ c ∧ c ≤ 102) := by
  have h : tx.GetTxID H = hexEncode (H.sha256 (H.sha256 tx.ToBytes)).reverse := by
    simp [Transaction.GetTxID, Sha256d, Sha256]
  rw [h]
  exact ⟨rfl, by simp [H.sha256_length], hexEncode_lower _⟩

/-- C38 (b): the id ignores the previous scripts and amounts. -/
theorem C38_txid_ignores (H : HashFns) (tx : Transaction) (f : Input → Option Script) (g : Input → UInt64) :
    ({ tx with Inputs := tx.Inputs.map fun i => ({ i with PreviousTxScript := f i, PreviousTxSatoshis := g i } : Input) } : Transaction).GetTxID H = tx.GetTxID H := by
  rw [(C38_txid_form H _).1, (C38_txid_form H tx).1, tx_toBytes_eq, tx_toBytes_eq]
  simp only [List.length_map, List.flatMap_map]
  rfl

/-- C38 (c): the id commits to the transaction: two transactions with proper txids and the same id have the same version, inputs (as on the wire), outputs and
locktime, unless their two (different) serialisations are a collision of double SHA256. -/
theorem C38_txid_commits (H : HashFns) (tx tx' : Transaction) (ht : ∀ i ∈ tx.Inputs, IsTxId i.PreviousTxID) (ht' : ∀ i ∈ tx'.Inputs, IsTxId i.PreviousTxID)
    (hs : tx.ToBytes.length < 2 ^ 62) (hs' : tx'.ToBytes.length < 2 ^ 62) (h : tx.GetTxID H = tx'.GetTxID H) :
    wireTx tx = wireTx tx' ∨ (tx.ToBytes ≠ tx'.ToBytes ∧ H.sha256 (H.sha256 tx.ToBytes) = H.sha256 (H.sha256 tx'.ToBytes)) := by
  rw [(C38_txid_form H tx).1, (C38_txid_form H tx').1] at h
  have h2 := List.reverse_injective (hexEncode_inj h)
  by_cases he : tx.ToBytes = tx'.ToBytes
  · left
    have p1 := C33_parse_serialise tx ht [] (by simpa using hs)
    have p2 := C33_parse_serialise tx' ht' [] (by simpa using hs')
    rw [he, p2] at p1
    injection p1 with p1
    exact p1.symm
  · right; exact ⟨he, h2⟩

/-- Without a collision, equal ids mean equal wire views (the serialisation itself is injective). -/
theorem C38_serialise_injective (tx tx' : Transaction) (ht : ∀ i ∈ tx.Inputs, IsTxId i.PreviousTxID) (ht' : ∀ i ∈ tx'.Inputs, IsTxId i.PreviousTxID)
    (hs : tx.ToBytes.length < 2 ^ 62) : tx.ToBytes = tx'.ToBytes ↔ wireTx tx = wireTx tx' := by
  constructor
  · intro he
    have p1 := C33_parse_serialise tx ht [] (by simpa using hs)
    have p2 := C33_parse_serialise tx' ht' [] (by rw [← he]; simpa using hs)
    rw [he, p2] at p1
    injection p1 with p1
    exact p1.symm
  · intro hw
    have key : ∀ t : Transaction, (∀ i ∈ t.Inputs, IsTxId i.PreviousTxID) → t.ToBytes = (wireTx t).ToBytes := by
      intro t h
      rw [tx_toBytes_eq, tx_toBytes_eq]
      have : t.Inputs.flatMap (fun i => i.ToBytes false) = (wireTx t).Inputs.flatMap (fun i => i.ToBytes false) := by
        simp only [wireTx, List.flatMap_map]
        have : ∀ xs : List Input, (∀ i ∈ xs, IsTxId i.PreviousTxID) → xs.flatMap (fun i => i.ToBytes false) = xs.flatMap (fun i => (wireInput i).ToBytes false) := by
          intro xs
          induction xs with
          | nil => simp
          | cons x xs ih =>
            intro hx
            have h1 := ih (fun i hi => hx i (by simp [hi]))
            obtain ⟨hh, _⟩ := isTxId_iff.mp (hx x (by simp))
            simp only [List.flatMap_cons, h1]
            congr 1
            rw [input_toBytes_eq, input_toBytes_eq]
            simp only [wireInput, Option.getD_some, ← hexEncode_decode hh, hexDecodeIgnore_encode]
        exact this _ h
      rw [this]
      simp [wireTx]
    rw [key tx ht, key tx' ht', hw]

example : exTx.GetTxID toyH = (wireTx exTx).GetTxID toyH := by decide +kernel

end Verif.Props
