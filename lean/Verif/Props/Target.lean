import Verif.Model.Block
import Verif.Spec.Target
import Verif.Lemmas.Basic
import Verif.Lemmas.Base58
/-!
# C56: compact target expansion
-/
namespace Verif.Props
open Verif Spec

theorem beNat4 (b0 b1 b2 b3 : UInt8) : beNat [b0, b1, b2, b3] = b0.toNat * 16777216 + b1.toNat * 65536 + b2.toNat * 256 + b3.toNat := by
  simp only [beNat, List.foldl_cons, List.foldl_nil]; omega

theorem compact_mantissa (n : Nat) : (UInt32.ofNat n &&& 0x007fffff).toNat = n % 8388608 := by
  rw [UInt32.toNat_and, UInt32.toNat_ofNat']
  rw [show (8388607 : UInt32).toNat = 2 ^ 23 - 1 from rfl, Nat.and_two_pow_sub_one_eq_mod]
  omega

theorem compact_exponent (n : Nat) (hn : n < 4294967296) : (UInt32.ofNat n >>> 24).toNat = n / 16777216 := by
  rw [UInt32.toNat_shiftRight, UInt32.toNat_ofNat']
  rw [show (24 : UInt32).toNat % 32 = 24 from rfl, Nat.shiftRight_eq_div_pow]
  omega

theorem compact_sign (n : Nat) (hn : n < 4294967296) : (UInt32.ofNat n &&& 0x00800000 ≠ 0) ↔ n / 8388608 % 2 = 1 := by
  have key : (n &&& 2 ^ 23 ≠ 0) ↔ n.testBit 23 = true := by
    constructor
    · intro h
      by_contra hc
      apply h
      apply Nat.eq_of_testBit_eq
      intro i
      rw [Nat.testBit_and, Nat.testBit_two_pow, Nat.zero_testBit]
      by_cases hi : 23 = i
      · subst hi; simp at hc; simp [hc]
      · simp [hi]
    · intro h e
      have := congrArg (fun k => k.testBit 23) e
      simp only [Nat.testBit_and, h, Nat.testBit_two_pow, Nat.zero_testBit] at this
      simp at this
  rw [← UInt32.toNat_inj.ne, UInt32.toNat_and, UInt32.toNat_ofNat', show (8388608 : UInt32).toNat = 2 ^ 23 from rfl,
    show n % 2 ^ 32 = n by omega, show UInt32.toNat 0 = 0 from rfl, key, Nat.testBit_eq_decide_div_mod_eq]
  norm_num

theorem shift_floor (m e : Nat) : (if e ≤ 3 then m >>> (8 * (3 - e)) else m <<< (8 * (e - 3))) = m * 256 ^ e / 256 ^ 3 := by
  split_ifs with h
  · rw [Nat.shiftRight_eq_div_pow]
    obtain ⟨k, hk⟩ : ∃ k, 3 = e + k := ⟨3 - e, by omega⟩
    rw [show 3 - e = k by omega, hk, pow_add, Nat.pow_mul, show (2 : Nat) ^ 8 = 256 from rfl]
    rw [Nat.mul_comm m, Nat.mul_div_mul_left _ _ (by positivity)]
  · rw [Nat.shiftLeft_eq]
    obtain ⟨k, hk⟩ : ∃ k, e = 3 + k := ⟨e - 3, by omega⟩
    rw [show e - 3 = k by omega, hk, pow_add, Nat.pow_mul, show (2 : Nat) ^ 8 = 256 from rfl]
    rw [show m * (256 ^ 3 * 256 ^ k) = 256 ^ 3 * (m * 256 ^ k) by ring, Nat.mul_div_cancel_left _ (by norm_num)]

theorem expandCompact_eq (b0 b1 b2 b3 : UInt8) : expandCompact (UInt32.ofNat (beNat [b0, b1, b2, b3])) = compactTarget b0 b1 b2 b3 := by
  have hlt : beNat [b0, b1, b2, b3] < 4294967296 := lt_of_lt_of_eq (beNat_lt [b0, b1, b2, b3]) (by norm_num)
  have h0 := b0.toNat_lt
  have h1 := b1.toNat_lt
  have h2 := b2.toNat_lt
  have h3 := b3.toNat_lt
  have hbe := beNat4 b0 b1 b2 b3
  unfold expandCompact compactTarget compactMagnitude
  simp only [compact_mantissa, compact_exponent _ hlt, decide_eq_true_eq]
  have hm : beNat [b0, b1, b2, b3] % 8388608 = compactMantissa b1 b2 b3 := by rw [hbe, compactMantissa]; omega
  have he : beNat [b0, b1, b2, b3] / 16777216 = b0.toNat := by rw [hbe]; omega
  have hs : (UInt32.ofNat (beNat [b0, b1, b2, b3]) &&& 0x00800000 ≠ 0) ↔ 128 ≤ b1.toNat := by
    rw [compact_sign _ hlt, hbe]; omega
  rw [hm, he]
  have := shift_floor (compactMantissa b1 b2 b3) b0.toNat
  by_cases h : b0.toNat ≤ 3
  · rw [if_pos h] at this
    simp only [hs, if_pos h, this]
  · rw [if_neg h] at this
    simp only [hs, if_neg h, this]

/-- C56: the integer result, for every string that is hex and encodes at least four bytes: only the first four bytes matter. -/
theorem C56_target (bits : Bytes) (e x y z : UInt8) (rest : Bytes) (hx : IsHex bits) (hb : hexDecodeIgnore bits = e :: x :: y :: z :: rest) :
    ExpandTargetFromAsInt bits = .ok (compactTarget e x y z) := by
  unfold ExpandTargetFromAsInt
  rw [hexDecodeRes_isHex hx, Res.ok_bind, hb]
  unfold getUint32BE
  rw [if_neg (by simp), Res.ok_bind]
  simp only [List.take, Res.pure_eq, expandCompact_eq]

/-- non-vacuity: the bits of the genesis block, and a negative target with a fractional magnitude -/
example : ExpandTargetFromAsInt b!"1d00ffff" = .ok (0xffff * 256 ^ 26) ∧ ExpandTargetFromAsInt b!"02923456AB" = .ok (-0x1234) := by decide +kernel

theorem hex_split (bits : Bytes) : (¬ IsHex bits) ∨ (IsHex bits ∧ bits.length < 8 ∧ (hexDecodeIgnore bits).length < 4) ∨
    (IsHex bits ∧ 8 ≤ bits.length ∧ ∃ e x y z rest, hexDecodeIgnore bits = e :: x :: y :: z :: rest) := by
  by_cases hx : IsHex bits
  · right
    have hl := hexDecodeIgnore_length hx
    rcases h : hexDecodeIgnore bits with _ | ⟨e, _ | ⟨x, _ | ⟨y, _ | ⟨z, rest⟩⟩⟩⟩
    · left; refine ⟨hx, ?_, ?_⟩ <;> simp_all
    · left; refine ⟨hx, ?_, ?_⟩ <;> simp_all
    · left; refine ⟨hx, ?_, ?_⟩ <;> simp_all
    · left; refine ⟨hx, ?_, ?_⟩ <;> simp_all
    · right; rw [h] at hl; simp only [List.length_cons] at hl; exact ⟨hx, by omega, _, _, _, _, _, rfl⟩
  · exact Or.inl hx

/-- C56: an error is returned exactly for strings that are not hex, and the call panics exactly on hex strings shorter than eight digits. -/
theorem C56_target_failures (bits : Bytes) :
    ((∃ m, ExpandTargetFromAsInt bits = .err m) ↔ ¬ IsHex bits) ∧ (ExpandTargetFromAsInt bits = .panic ↔ IsHex bits ∧ bits.length < 8) := by
  rcases hex_split bits with hx | ⟨hx, hl, hb⟩ | ⟨hx, hl, e, x, y, z, rest, hb⟩
  · obtain ⟨m, hm⟩ := hexDecodeRes_not_isHex hx
    simp [ExpandTargetFromAsInt, hm, hx]
  · have : ExpandTargetFromAsInt bits = .panic := by
      unfold ExpandTargetFromAsInt
      rw [hexDecodeRes_isHex hx, Res.ok_bind, getUint32BE, if_pos hb]; rfl
    simp [this, hx, hl]
  · rw [C56_target bits e x y z rest hx hb]
    simp [hx]; omega

/-- non-vacuity: both failures happen -/
example : ExpandTargetFromAsInt b!"1d00" = .panic ∧ ExpandTargetFromAsInt b!"1g00ffff" = .err "encoding/hex: invalid byte" := by decide +kernel

theorem bigBytes_length_le (n k : Nat) : (bigBytes n).length ≤ k ↔ n < 256 ^ k := by
  obtain ⟨hz, hv⟩ := bigBytes_noZero n
  constructor
  · intro h
    rw [← hv]
    exact lt_of_lt_of_le (beNat_lt _) (Nat.pow_le_pow_right (by omega) h)
  · intro h
    rcases hb : bigBytes n with _ | ⟨c, t⟩
    · simp
    · rw [hb] at hz hv
      rw [beNat_cons] at hv
      have hc : 1 ≤ c.toNat := by
        rcases Nat.eq_zero_or_pos c.toNat with h0 | h0
        · exact absurd (by simp [UInt8.toNat_inj.mp (h0.trans (by rfl : 0 = (0 : UInt8).toNat))]) hz
        · exact h0
      have : 256 ^ t.length < 256 ^ k := by
        have : 256 ^ t.length ≤ c.toNat * 256 ^ t.length := Nat.le_mul_of_pos_left _ hc
        omega
      have := (Nat.pow_lt_pow_iff_right (by omega : 1 < 256)).mp this
      simp only [List.length_cons]; omega

theorem expandTargetFrom_eq {bits : Bytes} {t : Int} (h : ExpandTargetFromAsInt bits = .ok t) :
    ExpandTargetFrom bits = if t.natAbs < 2 ^ 256 then .ok (hexEncode (List.replicate (32 - (bigBytes t.natAbs).length) 0 ++ bigBytes t.natAbs)) else .panic := by
  unfold ExpandTargetFrom
  rw [h, Res.ok_bind]
  have := bigBytes_length_le t.natAbs 32
  rw [show (256 : Nat) ^ 32 = 2 ^ 256 by norm_num] at this
  by_cases hlt : t.natAbs < 2 ^ 256
  · rw [if_pos hlt, if_neg (by have := this.mpr hlt; omega)]; rfl
  · rw [if_neg hlt, if_pos (by by_contra hc; exact hlt (this.mp (by omega)))]

/-- C56: for a target in `[0, 2^256)` the string result is the unique string of 64 lower-case hex digits denoting it. -/
theorem C56_string (bits : Bytes) (t : Nat) (h : ExpandTargetFromAsInt bits = .ok t) (ht : t < 2 ^ 256) (s : Bytes) :
    ExpandTargetFrom bits = .ok s ↔ ∃ b : Bytes, b.length = 32 ∧ beNat b = t ∧ s = hexEncode b := by
  rw [expandTargetFrom_eq h, Int.natAbs_natCast, if_pos ht]
  have hle : (bigBytes t).length ≤ 32 := (bigBytes_length_le t 32).mpr (lt_of_lt_of_eq ht (by norm_num))
  have hv : beNat (List.replicate (32 - (bigBytes t).length) 0 ++ bigBytes t) = t := by rw [beNat_zeros, (bigBytes_noZero t).2]
  constructor
  · intro e
    exact ⟨_, by simp; omega, hv, (Res.ok.inj e).symm⟩
  · rintro ⟨b, hl, hb, rfl⟩
    congr 2
    exact beNat_inj (by simp [hl]; omega) (hv.trans hb.symm)

/-- non-vacuity -/
example : ExpandTargetFrom b!"1d00ffff" = .ok b!"00000000ffff0000000000000000000000000000000000000000000000000000" := by decide +kernel

/-- C56, all outcomes of the string form: hex error; panic when fewer than four bytes are given or the magnitude needs more than 32 bytes; otherwise the
64 digits of the magnitude, the sign being dropped. -/
theorem C56_string_outcomes (bits : Bytes) :
    ((∃ m, ExpandTargetFrom bits = .err m) ↔ ¬ IsHex bits) ∧
    (ExpandTargetFrom bits = .panic ↔ IsHex bits ∧ (bits.length < 8 ∨ ∃ t, ExpandTargetFromAsInt bits = .ok t ∧ 2 ^ 256 ≤ t.natAbs)) ∧
    (∀ s, ExpandTargetFrom bits = .ok s ↔
      ∃ t, ExpandTargetFromAsInt bits = .ok t ∧ t.natAbs < 2 ^ 256 ∧ ∃ b : Bytes, b.length = 32 ∧ beNat b = t.natAbs ∧ s = hexEncode b) := by
  have hf := C56_target_failures bits
  rcases h : ExpandTargetFromAsInt bits with t | m | _
  · rw [h] at hf
    have hx : IsHex bits := by by_contra hc; simpa using hf.1.mpr hc
    have hl : ¬ bits.length < 8 := fun hc => by simpa using hf.2.mpr ⟨hx, hc⟩
    rw [expandTargetFrom_eq h]
    by_cases hlt : t.natAbs < 2 ^ 256
    · rw [if_pos hlt]
      have hle : (bigBytes t.natAbs).length ≤ 32 := (bigBytes_length_le t.natAbs 32).mpr (lt_of_lt_of_eq hlt (by norm_num))
      have hv : beNat (List.replicate (32 - (bigBytes t.natAbs).length) 0 ++ bigBytes t.natAbs) = t.natAbs := by rw [beNat_zeros, (bigBytes_noZero _).2]
      refine ⟨by simp [hx], ?_, ?_⟩
      · constructor
        · intro e; cases e
        · rintro ⟨_, hc | ⟨t', e, hc⟩⟩
          · exact absurd hc hl
          · cases e; exact absurd hlt (by omega)
      · intro s
        constructor
        · intro e
          exact ⟨t, rfl, hlt, _, by simp; omega, hv, (Res.ok.inj e).symm⟩
        · rintro ⟨t', e, _, b, hbl, hb, rfl⟩
          cases e
          congr 2
          exact beNat_inj (by simp [hbl]; omega) (hv.trans hb.symm)
    · rw [if_neg hlt]
      refine ⟨by simp [hx], ?_, ?_⟩
      · exact ⟨fun _ => ⟨hx, Or.inr ⟨t, rfl, by omega⟩⟩, fun _ => rfl⟩
      · intro s
        constructor
        · intro e; cases e
        · rintro ⟨t', e, hc, _⟩
          cases e; exact absurd hc hlt
  · rw [h] at hf
    have hx : ¬ IsHex bits := hf.1.mp ⟨m, rfl⟩
    simp [ExpandTargetFrom, h, hx]
  · rw [h] at hf
    obtain ⟨hx, hl⟩ := hf.2.mp rfl
    simp [ExpandTargetFrom, h, hx, hl]

/-- C56 violation: a target that needs 33 bytes panics instead of reporting an error. -/
theorem C56_violation_large : ExpandTargetFrom b!"2100ffff" = .ok b!"ffff000000000000000000000000000000000000000000000000000000000000" ∧ ExpandTargetFrom b!"2200ffff" = .panic := by
  decide +kernel

/-- C56 violation: a negative target is printed as if it were positive. -/
theorem C56_violation_sign : ExpandTargetFromAsInt b!"04923456" = .ok (-0x12345600) ∧ ExpandTargetFrom b!"04923456" = ExpandTargetFrom b!"04123456" := by
  decide +kernel

/-- C56: the top byte at which the string form stops being defined: exponents up to 32 always fit, exponents from 35 on fit only for mantissa 0. -/
theorem C56_fits (e x y z : UInt8) : (e.toNat ≤ 32 → (compactTarget e x y z).natAbs < 2 ^ 256) ∧
    (35 ≤ e.toNat → 0 < compactMantissa x y z → 2 ^ 256 ≤ (compactTarget e x y z).natAbs) := by
  have hn : (compactTarget e x y z).natAbs = compactMantissa x y z * 256 ^ e.toNat / 256 ^ 3 := by
    unfold compactTarget compactMagnitude; split_ifs <;> simp only [Int.natAbs_neg, Int.natAbs_natCast]
  rw [hn]
  have hm : compactMantissa x y z < 256 ^ 3 := by
    have := y.toNat_lt; have := z.toNat_lt
    unfold compactMantissa; omega
  constructor
  · intro h
    rw [Nat.div_lt_iff_lt_mul (by norm_num)]
    calc compactMantissa x y z * 256 ^ e.toNat < 256 ^ 3 * 256 ^ e.toNat := Nat.mul_lt_mul_of_pos_right hm (by positivity)
      _ ≤ 256 ^ 3 * 256 ^ 32 := Nat.mul_le_mul_left _ (Nat.pow_le_pow_right (by norm_num) h)
      _ = 2 ^ 256 * 256 ^ 3 := by norm_num
  · intro h h0
    rw [Nat.le_div_iff_mul_le (by norm_num)]
    calc 2 ^ 256 * 256 ^ 3 = 1 * 256 ^ 35 := by norm_num
      _ ≤ compactMantissa x y z * 256 ^ e.toNat := Nat.mul_le_mul h0 (Nat.pow_le_pow_right (by norm_num) h)

/-- non-vacuity: both premises are met -/
example : (0x1d : UInt8).toNat ≤ 32 ∧ 35 ≤ (0x23 : UInt8).toNat ∧ 0 < compactMantissa 0 0 1 := by decide +kernel

end Verif.Props
