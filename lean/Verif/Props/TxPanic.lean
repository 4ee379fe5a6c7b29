import Verif.Props.Tx
/-!
# Property C36, whole transactions: the exact panic domain of `transaction.NewFromBytes`
-/
namespace Verif.Props
open Verif Verif.Spec

/-- Specification: the bytes do not begin with a complete variable-length number. -/
def Unfinished (b : Bytes) : Prop := ¬ ∃ (n : Nat) (c r : Bytes), CompactSize n c ∧ b = c ++ r

theorem decodeVarInt_ne_err (d sp : Bytes) (m : String) : DecodeVarInt ⟨d, sp⟩ ≠ .err m := by
  cases d with
  | nil => rw [decodeVarInt_nil]; simp
  | cons b0 d => rw [decodeVarInt_cons]; split <;> simp

theorem unfinished_cases {d : Bytes} (h : Unfinished d) (sp : Bytes) :
    DecodeVarInt ⟨d, sp⟩ = .panic ∨ ∃ l size, DecodeVarInt ⟨d, sp⟩ = .ok (l, size) ∧ d.length < size ∧ size ≤ 9 := by
  rcases hd : DecodeVarInt ⟨d, sp⟩ with ⟨l, size⟩ | m | _
  · obtain ⟨⟨_, h9, _⟩, h2⟩ := decodeVarInt_split hd
    right
    refine ⟨l, size, rfl, ?_, h9⟩
    by_contra hc
    obtain ⟨e, rest, h3, h4, _⟩ := h2 (by omega)
    exact h ⟨_, e, rest, h4, h3⟩
  · exact absurd hd (decodeVarInt_ne_err _ _ _)
  · exact Or.inl rfl

theorem readInputs_panic_iff (n : Nat) : ∀ (pre d sp : Bytes), (pre ++ d).length + sp.length < 2 ^ 62 →
    (Transaction.readInputs n ⟨pre ++ d, sp⟩ (pre.length : Int) = .panic ↔
      ∃ xs e rest, d = e ++ rest ∧ xs.length < n ∧ IsSeq (IsInput CompactSize) xs e ∧ Input.NewFromBytes ⟨rest, sp⟩ = .panic) := by
  induction n with
  | zero =>
    intro pre d sp _
    simp [Transaction.readInputs]
  | succ n ih =>
    intro pre d sp hcap
    have hcap' : d.length + sp.length < 2 ^ 62 := by rw [List.length_append] at hcap; omega
    simp only [Transaction.readInputs]
    rw [sliceFrom_append pre d sp _ rfl, Res.ok_bind, Res.bind_eq_panic]
    constructor
    · rintro (h | ⟨⟨x, size⟩, hx, h⟩)
      · exact ⟨[], [], d, rfl, by simp, rfl, h⟩
      · obtain ⟨e1, r1, rfl, hi, rfl⟩ := (input_parse_iff d sp hcap' x size).mp hx
        rcases Res.bind_eq_panic.mp h with h | ⟨y, _, h⟩
        · rw [wrap64_eq (by omega) (by simp only [List.length_append] at hcap; omega), ← List.append_assoc, ← Nat.cast_add, ← List.length_append] at h
          obtain ⟨xs, e, rest, rfl, h1, h2, h3⟩ := (ih (pre ++ e1) r1 sp (by simpa using hcap)).mp h
          exact ⟨x :: xs, e1 ++ e, rest, by simp, by simpa using h1, ⟨e1, e, hi, h2, rfl⟩, h3⟩
        · cases h
    · rintro ⟨xs, e, rest, rfl, h1, h2, h3⟩
      rcases xs with _ | ⟨x, xs⟩
      · simp only [IsSeq] at h2
        subst h2
        exact Or.inl h3
      · obtain ⟨e1, e2, q1, q2, rfl⟩ := h2
        right
        have hx := (input_parse_iff (e1 ++ e2 ++ rest) sp hcap' x e1.length).mpr ⟨e1, e2 ++ rest, by simp, q1, rfl⟩
        refine ⟨(x, e1.length), hx, Res.bind_eq_panic.mpr (Or.inl ?_)⟩
        dsimp only
        rw [wrap64_eq (by omega) (by simp only [List.length_append] at hcap; omega), List.append_assoc, ← List.append_assoc, ← Nat.cast_add, ← List.length_append]
        exact (ih (pre ++ e1) (e2 ++ rest) sp (by simpa using hcap)).mpr ⟨xs, e2, rest, rfl, by simpa using h1, q2, h3⟩

theorem readOutputs_panic_iff (n : Nat) : ∀ (pre d sp : Bytes), (pre ++ d).length + sp.length < 2 ^ 62 →
    (Transaction.readOutputs n ⟨pre ++ d, sp⟩ (pre.length : Int) = .panic ↔
      ∃ xs e rest, d = e ++ rest ∧ xs.length < n ∧ IsSeq (IsOutput CompactSize) xs e ∧ Output.NewFromBytes ⟨rest, sp⟩ = .panic) := by
  induction n with
  | zero =>
    intro pre d sp _
    simp [Transaction.readOutputs]
  | succ n ih =>
    intro pre d sp hcap
    have hcap' : d.length + sp.length < 2 ^ 62 := by rw [List.length_append] at hcap; omega
    simp only [Transaction.readOutputs]
    rw [sliceFrom_append pre d sp _ rfl, Res.ok_bind, Res.bind_eq_panic]
    constructor
    · rintro (h | ⟨⟨x, size⟩, hx, h⟩)
      · exact ⟨[], [], d, rfl, by simp, rfl, h⟩
      · obtain ⟨e1, r1, rfl, hi, rfl⟩ := (output_parse_iff d sp hcap' x size).mp hx
        rcases Res.bind_eq_panic.mp h with h | ⟨y, _, h⟩
        · rw [wrap64_eq (by omega) (by simp only [List.length_append] at hcap; omega), ← List.append_assoc, ← Nat.cast_add, ← List.length_append] at h
          obtain ⟨xs, e, rest, rfl, h1, h2, h3⟩ := (ih (pre ++ e1) r1 sp (by simpa using hcap)).mp h
          exact ⟨x :: xs, e1 ++ e, rest, by simp, by simpa using h1, ⟨e1, e, hi, h2, rfl⟩, h3⟩
        · cases h
    · rintro ⟨xs, e, rest, rfl, h1, h2, h3⟩
      rcases xs with _ | ⟨x, xs⟩
      · simp only [IsSeq] at h2
        subst h2
        exact Or.inl h3
      · obtain ⟨e1, e2, q1, q2, rfl⟩ := h2
        right
        have hx := (output_parse_iff (e1 ++ e2 ++ rest) sp hcap' x e1.length).mpr ⟨e1, e2 ++ rest, by simp, q1, rfl⟩
        refine ⟨(x, e1.length), hx, Res.bind_eq_panic.mpr (Or.inl ?_)⟩
        dsimp only
        rw [wrap64_eq (by omega) (by simp only [List.length_append] at hcap; omega), List.append_assoc, ← List.append_assoc, ← Nat.cast_add, ← List.length_append]
        exact (ih (pre ++ e1) (e2 ++ rest) sp (by simpa using hcap)).mpr ⟨xs, e2, rest, rfl, by simpa using h1, q2, h3⟩

/-- The parser after the version: what follows the inputs. -/
theorem tx_panic_tail (ver : UInt32) (pre d sp : Bytes) (ins : List Input) (hcap : (pre ++ d).length + sp.length < 2 ^ 62) :
    ((do
      let s ← (⟨pre ++ d, sp⟩ : Slice).sliceFrom (pre.length : Int)
      let (outputCount, size) ← DecodeVarInt s
      let offset := wrap64 ((pre.length : Int) + size)
      let (outs, offset) ← Transaction.readOutputs outputCount.toNat ⟨pre ++ d, sp⟩ offset
      let nLT ← (⟨pre ++ d, sp⟩ : Slice).sliceFrom offset
      if nLT.len ≠ 4 then .err "nLockTime length must be 4 bytes long"
      else do
        let lt ← getUint32 nLT.data
        pure { Version := ver, Inputs := ins, Outputs := outs, Locktime := lt : Transaction }) = .panic) ↔
      Unfinished d ∨ ∃ (n : Nat) (c : Bytes) (xs : List Output) (e rest : Bytes), CompactSize n c ∧ d = c ++ e ++ rest ∧
        xs.length < n ∧ IsSeq (IsOutput CompactSize) xs e ∧ Output.NewFromBytes ⟨rest, sp⟩ = .panic := by
  rw [sliceFrom_append pre d sp _ rfl, Res.ok_bind]
  by_cases hu : Unfinished d
  · refine ⟨fun _ => Or.inl hu, fun _ => ?_⟩
    rcases unfinished_cases hu sp with h | ⟨l, size, h, h1, h9⟩
    · rw [h, Res.panic_bind]
    · rw [h, Res.ok_bind]
      dsimp only
      rw [wrap64_eq (by omega) (by simp only [List.length_append] at hcap; omega)]
      have hp : (⟨pre ++ d, sp⟩ : Slice).sliceFrom ((pre.length : Int) + size) = .panic := by
        unfold Slice.sliceFrom; rw [if_neg (by simp [Slice.len]; omega)]
      cases l.toNat with
      | zero =>
        simp only [Transaction.readOutputs]
        rw [Res.ok_bind]
        dsimp only
        rw [hp, Res.panic_bind]
      | succ n =>
        simp only [Transaction.readOutputs]
        rw [hp, Res.panic_bind, Res.panic_bind]
  · simp only [hu, false_or]
    unfold Unfinished at hu
    rw [not_not] at hu
    obtain ⟨n, c, r, hc, rfl⟩ := hu
    have h1 := compactSize_length_pos hc
    have hlt := compactSize_lt hc
    rw [decodeVarInt_compact hc, Res.ok_bind]
    dsimp only
    rw [wrap64_eq (by omega) (by simp only [List.length_append] at hcap; omega), UInt64.toNat_ofNat', Nat.mod_eq_of_lt hlt,
      ← Nat.cast_add, ← List.length_append, ← List.append_assoc, Res.bind_eq_panic,
      readOutputs_panic_iff n (pre ++ c) r sp (by simpa using hcap)]
    constructor
    · rintro (⟨xs, e, rest, rfl, q1, q2, q3⟩ | ⟨⟨outs, off⟩, ho, h⟩)
      · exact ⟨n, c, xs, e, rest, hc, by simp, q1, q2, q3⟩
      · exfalso
        obtain ⟨e, rest, rfl, _, _, rfl⟩ := (readOutputs_iff n (pre ++ c) r sp (by simpa using hcap) outs off).mp ho
        revert h
        dsimp only
        rw [← List.append_assoc, sliceFrom_append (pre ++ c ++ e) rest sp _ rfl, Res.ok_bind]
        split
        · simp
        · rename_i h4
          simp only [Slice.len, not_not] at h4
          unfold getUint32
          rw [if_neg (by dsimp only; omega)]
          simp
    · rintro ⟨n', c', xs, e, rest, hc', he, q1, q2, q3⟩
      rw [List.append_assoc] at he
      obtain ⟨rfl, rfl, rfl⟩ := compactSize_prefix_free hc hc' he
      exact Or.inl ⟨xs, e, rest, rfl, q1, q2, q3⟩

/-- C36, exact panic domain of `transaction.NewFromBytes`: at least ten bytes, and behind the version either
(1) the input count is not complete; or
(2) after the count and some complete inputs, fewer than announced, the next input makes `input.NewFromBytes` panic (`C36_input_panic_iff` says when); or
(3) after the announced inputs the output count is not complete; or
(4) after some complete outputs, fewer than announced, the next output makes `output.NewFromBytes` panic (`C36_output_panic_iff`). -/
theorem C36_transaction_panic_iff (b sp : Bytes) (hcap : b.length + sp.length < 2 ^ 62) :
    Transaction.NewFromBytes ⟨b, sp⟩ = .panic ↔ 10 ≤ b.length ∧
      (Unfinished (b.drop 4) ∨
       ∃ (n : Nat) (c : Bytes) (xs : List Input) (e rest : Bytes), CompactSize n c ∧ b.drop 4 = c ++ e ++ rest ∧ IsSeq (IsInput CompactSize) xs e ∧
        ((xs.length < n ∧ Input.NewFromBytes ⟨rest, sp⟩ = .panic) ∨
         (xs.length = n ∧ (Unfinished rest ∨
            ∃ (k : Nat) (c' : Bytes) (ys : List Output) (e' rest' : Bytes), CompactSize k c' ∧ rest = c' ++ e' ++ rest' ∧ ys.length < k ∧
              IsSeq (IsOutput CompactSize) ys e' ∧ Output.NewFromBytes ⟨rest', sp⟩ = .panic)))) := by
  unfold Transaction.NewFromBytes
  by_cases hten : b.length < 10
  · rw [if_pos (by simpa [Slice.len] using hten)]
    constructor
    · intro h; cases h
    · rintro ⟨h, _⟩; omega
  rw [if_neg (by simpa [Slice.len] using hten), and_iff_right (by omega)]
  obtain ⟨ver, d, rfl, hv⟩ := exists_split 4 (by omega : 4 ≤ b.length)
  have e1 : (⟨ver ++ d, sp⟩ : Slice).sliceRange 0 4 = .ok ⟨ver, d ++ sp⟩ := by
    have := sliceRange_append [] ver d sp 0 4 (by simp) (by simp [hv])
    simpa using this
  have e2 : getUint32 ver = .ok (UInt32.ofNat (leNat ver)) := by simpa using getUint32_of_length (t := []) hv
  have e3 := sliceFrom_append ver d sp 4 (by simp [hv])
  have hdrop : (ver ++ d).drop 4 = d := by rw [← hv]; simp
  rw [hdrop, e1, Res.ok_bind, e2, Res.ok_bind]
  dsimp only
  rw [e3, Res.ok_bind]
  by_cases hu : Unfinished d
  · refine ⟨fun _ => Or.inl hu, fun _ => ?_⟩
    rcases unfinished_cases hu sp with h | ⟨l, size, h, h1, h9⟩
    · rw [h, Res.panic_bind]
    · rw [h, Res.ok_bind]
      dsimp only
      rw [wrap64_eq (by omega) (by omega)]
      have hp : (⟨ver ++ d, sp⟩ : Slice).sliceFrom (4 + (size : Int)) = .panic := by
        unfold Slice.sliceFrom; rw [if_neg (by simp [Slice.len, hv]; omega)]
      cases l.toNat with
      | zero =>
        simp only [Transaction.readInputs]
        rw [Res.ok_bind]
        dsimp only
        rw [hp, Res.panic_bind]
      | succ n =>
        simp only [Transaction.readInputs]
        rw [hp, Res.panic_bind, Res.panic_bind]
  · simp only [hu, false_or]
    unfold Unfinished at hu
    rw [not_not] at hu
    obtain ⟨n, c, r, hc, rfl⟩ := hu
    have h1 := compactSize_length_pos hc
    have hlt := compactSize_lt hc
    rw [decodeVarInt_compact hc, Res.ok_bind]
    dsimp only
    have hoff : wrap64 (4 + (c.length : Int)) = ((ver ++ c).length : Int) := by
      rw [wrap64_eq (by omega) (by omega), List.length_append, hv]; omega
    rw [hoff, UInt64.toNat_ofNat', Nat.mod_eq_of_lt hlt, ← List.append_assoc, Res.bind_eq_panic,
      readInputs_panic_iff n (ver ++ c) r sp (by simpa using hcap)]
    constructor
    · rintro (⟨xs, e, rest, rfl, q1, q2, q3⟩ | ⟨⟨ins, off⟩, hi, h⟩)
      · exact ⟨n, c, xs, e, rest, hc, by simp, q2, Or.inl ⟨q1, q3⟩⟩
      · obtain ⟨e, rest, rfl, hl, hs, rfl⟩ := (readInputs_iff n (ver ++ c) r sp (by simpa using hcap) ins off).mp hi
        dsimp only at h
        rw [← List.append_assoc, tx_panic_tail _ (ver ++ c ++ e) rest sp ins (by simpa using hcap)] at h
        exact ⟨n, c, ins, e, rest, hc, by simp, hs, Or.inr ⟨hl, h⟩⟩
    · rintro ⟨n', c', xs, e, rest, hc', he, q2, q⟩
      rw [List.append_assoc] at he
      obtain ⟨rfl, rfl, rfl⟩ := compactSize_prefix_free hc hc' he
      rcases q with ⟨q1, q3⟩ | ⟨rfl, q3⟩
      · exact Or.inl ⟨xs, e, rest, rfl, q1, q2, q3⟩
      · right
        refine ⟨(xs, ((ver ++ c ++ e).length : Int)), (readInputs_iff xs.length (ver ++ c) (e ++ rest) sp (by simpa using hcap) xs _).mpr
          ⟨e, rest, rfl, rfl, q2, rfl⟩, ?_⟩
        dsimp only
        rw [← List.append_assoc, tx_panic_tail _ (ver ++ c ++ e) rest sp xs (by simpa using hcap)]
        exact q3

example : Transaction.NewFromBytes (Slice.exact ([1, 0, 0, 0, 1] ++ List.replicate 36 0)) = .panic ∧
    (Transaction.NewFromBytes (Slice.exact ([1, 0, 0, 0, 1] ++ List.replicate 35 0))).isErr = true := by decide +kernel

end Verif.Props
