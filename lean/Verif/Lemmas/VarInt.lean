import Verif.Lemmas.Basic
/-! # Lemmas on VarInt -/
namespace Verif

/-- Total size announced by the first byte of a variable-length integer. -/
def announced (b0 : UInt8) : Nat := if b0 = 0xff then 9 else if b0 = 0xfe then 5 else if b0 = 0xfd then 3 else 1

theorem announced_cases (b0 : UInt8) : announced b0 = 1 ∨ announced b0 = 3 ∨ announced b0 = 5 ∨ announced b0 = 9 := by
  unfold announced; split_ifs <;> simp

/-- `DecodeVarInt` in closed form. -/
theorem decodeVarInt_cons (b0 : UInt8) (d sp : Bytes) :
    DecodeVarInt ⟨b0 :: d, sp⟩ =
      if (d ++ sp).length + 1 < announced b0 then .panic
      else .ok (if announced b0 = 1 then b0.toUInt64 else UInt64.ofNat (leNat ((d ++ sp).take (announced b0 - 1))), announced b0) := by
  have key : ∀ n : Nat, 1 ≤ n → (⟨b0 :: d, sp⟩ : Slice).sliceRange 1 (n : Int) =
      if (d ++ sp).length + 1 < n then .panic else .ok ⟨(d ++ sp).take (n - 1), (d ++ sp).drop (n - 1)⟩ := by
    intro n hn
    obtain ⟨m, rfl⟩ : ∃ m, n = m + 1 := ⟨n - 1, by omega⟩
    by_cases h : (d ++ sp).length + 1 < m + 1
    · rw [if_pos h]
      have : ¬ ((0:Int) ≤ 1 ∧ (1:Int) ≤ ((m + 1 : Nat) : Int) ∧ ((m + 1 : Nat) : Int) ≤ ((⟨b0 :: d, sp⟩ : Slice).cap : Int)) := by
        simp [Slice.cap] at h ⊢; omega
      rw [Slice.sliceRange, if_neg this]
    · rw [if_neg h]
      have := sliceRange_ok ⟨b0 :: d, sp⟩ 1 (m + 1) (by omega) (by simp [Slice.cap] at h ⊢; omega)
      simpa using this
  have k9 := key 9 (by omega)
  have k5 := key 5 (by omega)
  have k3 := key 3 (by omega)
  simp only [Nat.cast_ofNat] at k9 k5 k3
  unfold DecodeVarInt announced
  simp only [index_cons_zero, Res.ok_bind]
  by_cases h9 : b0 = 0xff
  · simp only [if_pos h9, k9]
    by_cases hl : (d ++ sp).length + 1 < 9
    · simp only [if_pos hl, Res.panic_bind]
    · have : ¬ (((d ++ sp).take (9 - 1)).length < 8) := by rw [List.length_take]; omega
      simp only [if_neg hl, Res.ok_bind, getUint64, if_neg this]
      simp [List.take_take]
  · simp only [if_neg h9]
    by_cases h5 : b0 = 0xfe
    · simp only [if_pos h5, k5]
      by_cases hl : (d ++ sp).length + 1 < 5
      · simp only [if_pos hl, Res.panic_bind]
      · have : ¬ (((d ++ sp).take (5 - 1)).length < 4) := by rw [List.length_take]; omega
        have hlt : leNat ((d ++ sp).take 4) < 2 ^ 32 := by
          have h1 := leNat_lt ((d ++ sp).take 4)
          have h2 : ((d ++ sp).take 4).length = 4 := by rw [List.length_take]; omega
          rw [h2] at h1; omega
        simp only [if_neg hl, Res.ok_bind, getUint32, if_neg this]
        simp only [Nat.add_one_sub_one, List.take_take, Nat.min_self, Res.pure_eq, Res.ok.injEq, Prod.mk.injEq, and_true]
        apply UInt64.toNat_inj.mp
        simp
        rw [Nat.mod_eq_of_lt (by omega), Nat.mod_eq_of_lt (by omega)]
    · simp only [if_neg h5]
      by_cases h3 : b0 = 0xfd
      · simp only [if_pos h3, k3]
        by_cases hl : (d ++ sp).length + 1 < 3
        · simp only [if_pos hl, Res.panic_bind]
        · have : ¬ (((d ++ sp).take (3 - 1)).length < 2) := by rw [List.length_take]; omega
          have hlt : leNat ((d ++ sp).take 2) < 2 ^ 16 := by
            have h1 := leNat_lt ((d ++ sp).take 2)
            have h2 : ((d ++ sp).take 2).length = 2 := by rw [List.length_take]; omega
            rw [h2] at h1; omega
          simp only [if_neg hl, Res.ok_bind, getUint16, if_neg this]
          simp only [Nat.add_one_sub_one, List.take_take, Nat.min_self, Res.pure_eq, Res.ok.injEq, Prod.mk.injEq, and_true]
          apply UInt64.toNat_inj.mp
          simp
          rw [Nat.mod_eq_of_lt (by omega), Nat.mod_eq_of_lt (by omega)]
      · simp only [if_neg h3]
        rw [if_neg (by omega)]
        have h0 := b0.toNat_lt
        simp only [getUint16, List.length_cons, List.length_nil, leNat, List.take]
        simp

theorem decodeVarInt_nil (sp : Bytes) : DecodeVarInt ⟨[], sp⟩ = .panic := rfl

theorem VarInt_form (i : UInt64) : ∃ (b0 : UInt8) (t : Bytes), VarInt i = b0 :: t ∧ t.length + 1 = announced b0 ∧
    i = (if announced b0 = 1 then b0.toUInt64 else UInt64.ofNat (leNat t)) ∧
    (announced b0 = if i.toNat < 0xfd then 1 else if i.toNat < 2 ^ 16 then 3 else if i.toNat < 2 ^ 32 then 5 else 9) := by
  unfold VarInt
  by_cases h1 : i < 0xfd
  · have h1' : i.toNat < 253 := by simpa [UInt64.lt_iff_toNat_lt] using h1
    rw [if_pos h1]
    have hb : (i.toUInt8).toNat = i.toNat := by simp; omega
    have n1 : i.toUInt8 ≠ 0xff := by intro h; have := congrArg UInt8.toNat h; simp at this; omega
    have n2 : i.toUInt8 ≠ 0xfe := by intro h; have := congrArg UInt8.toNat h; simp at this; omega
    have n3 : i.toUInt8 ≠ 0xfd := by intro h; have := congrArg UInt8.toNat h; simp at this; omega
    refine ⟨_, _, rfl, ?_, ?_, ?_⟩ <;> simp only [announced, if_neg n1, if_neg n2, if_neg n3]
    · rfl
    · simp only [if_true]; apply UInt64.toNat_inj.mp; simp; omega
    · rw [if_pos h1']
  · have h1' : ¬ i.toNat < 253 := by simpa [UInt64.lt_iff_toNat_lt] using h1
    rw [if_neg h1]
    by_cases h2 : i < 0x10000
    · have h2' : i.toNat < 2 ^ 16 := by simpa [UInt64.lt_iff_toNat_lt] using h2
      rw [if_pos h2]
      refine ⟨_, _, rfl, ?_, ?_, ?_⟩
      · simp [announced]
      · simp only [announced]; simp only [leNat_putUint16]
        apply UInt64.toNat_inj.mp; simp; omega
      · rw [if_neg h1', if_pos h2']; rfl
    · have h2' : ¬ i.toNat < 2 ^ 16 := by simpa [UInt64.lt_iff_toNat_lt] using h2
      rw [if_neg h2]
      by_cases h3 : i < 0x100000000
      · have h3' : i.toNat < 2 ^ 32 := by simpa [UInt64.lt_iff_toNat_lt] using h3
        rw [if_pos h3]
        refine ⟨_, _, rfl, ?_, ?_, ?_⟩
        · simp [announced]
        · simp only [announced]; simp only [leNat_putUint32]
          apply UInt64.toNat_inj.mp; simp; omega
        · rw [if_neg h1', if_neg h2', if_pos h3']; rfl
      · have h3' : ¬ i.toNat < 2 ^ 32 := by simpa [UInt64.lt_iff_toNat_lt] using h3
        rw [if_neg h3]
        refine ⟨_, _, rfl, ?_, ?_, ?_⟩
        · simp [announced]
        · simp only [announced]; simp only [leNat_putUint64]; simp
        · rw [if_neg h1', if_neg h2', if_neg h3']; rfl

theorem decodeVarInt_VarInt (i : UInt64) (tail sp : Bytes) :
    DecodeVarInt ⟨VarInt i ++ tail, sp⟩ = .ok (i, (VarInt i).length) := by
  obtain ⟨b0, t, h1, h2, h3, h4⟩ := VarInt_form i
  rw [h1, List.cons_append, decodeVarInt_cons, if_neg (by simp; omega)]
  rw [List.append_assoc, List.take_append_of_le_length (by omega), List.take_of_length_le (by omega), ← h3]
  simp [h2]

theorem VarInt_length (i : UInt64) : (VarInt i).length =
    if i.toNat < 0xfd then 1 else if i.toNat < 2 ^ 16 then 3 else if i.toNat < 2 ^ 32 then 5 else 9 := by
  obtain ⟨b0, t, h1, h2, h3, h4⟩ := VarInt_form i
  rw [h1, ← h4, ← h2]; rfl

theorem VarInt_prefix_free {i j : UInt64} {s t : Bytes} (h : VarInt i ++ s = VarInt j ++ t) : i = j ∧ s = t := by
  have h1 := decodeVarInt_VarInt i s []
  have h2 := decodeVarInt_VarInt j t []
  rw [h, h2] at h1
  simp only [Res.ok.injEq, Prod.mk.injEq] at h1
  obtain ⟨rfl, _⟩ := h1
  exact ⟨rfl, List.append_cancel_left h⟩

theorem VarInt_length_pos (i : UInt64) : 1 ≤ (VarInt i).length := by
  rw [VarInt_length]; split <;> (try split) <;> (try split) <;> omega

theorem VarInt_length_le (i : UInt64) : (VarInt i).length ≤ 9 := by
  rw [VarInt_length]; split <;> (try split) <;> (try split) <;> omega

end Verif
