import Verif.Props.Target
import Verif.Lemmas.Float
/-!
# C57: difficulty from bits
-/
namespace Verif.Props
open Verif Spec

/-- The number the code divides by: all 24 low bits as the mantissa (no sign bit), and no division by powers of 256 for exponents below 3. -/
def codeTarget (e x y z : UInt8) : Nat := (x.toNat * 65536 + y.toNat * 256 + z.toNat) * 256 ^ (e.toNat - 3)

/-- The difficulty-1 target. -/
def genesisTarget : Nat := 0xffff * 2 ^ 208

theorem toCompactSize_eq (b0 b1 b2 b3 : UInt8) : toCompactSize (UInt32.ofNat (beNat [b0, b1, b2, b3])) = codeTarget b0 b1 b2 b3 := by
  have hlt : beNat [b0, b1, b2, b3] < 4294967296 := lt_of_lt_of_eq (beNat_lt [b0, b1, b2, b3]) (by norm_num)
  have h0 := b0.toNat_lt
  have h1 := b1.toNat_lt
  have h2 := b2.toNat_lt
  have h3 := b3.toNat_lt
  have hbe := beNat4 b0 b1 b2 b3
  unfold toCompactSize codeTarget
  have hm : (UInt32.ofNat (beNat [b0, b1, b2, b3]) % 0x01000000).toNat = b1.toNat * 65536 + b2.toNat * 256 + b3.toNat := by
    rw [UInt32.toNat_mod, UInt32.toNat_ofNat', show (0x01000000 : UInt32).toNat = 16777216 from rfl, hbe]; omega
  have he : (UInt32.ofNat (beNat [b0, b1, b2, b3]) / 0x01000000).toNat = b0.toNat := by
    rw [UInt32.toNat_div, UInt32.toNat_ofNat', show (0x01000000 : UInt32).toNat = 16777216 from rfl, hbe]; omega
  dsimp only
  rw [hm, he]
  congr 1
  split_ifs with h
  · rw [show b0.toNat - 3 = 0 by omega]; rfl
  · rw [show (8 * ((b0.toNat : Int) - 3)).toNat = 8 * (b0.toNat - 3) by omega, Nat.pow_mul]

theorem code_isDouble (e x y z : UInt8) : IsDouble (codeTarget e x y z) := by
  have h1 := x.toNat_lt
  have h2 := y.toNat_lt
  have h3 := z.toNat_lt
  have := isDouble_nat (m := x.toNat * 65536 + y.toNat * 256 + z.toNat) (by omega) ((8 * (e.toNat - 3) : Nat) : Int)
  rw [zpow_natCast, pow_mul] at this
  unfold codeTarget
  push_cast
  push_cast at this
  norm_num at this ⊢
  exact this

theorem rnd_code (e x y z : UInt8) : rnd (codeTarget e x y z) = codeTarget e x y z := rnd_double (code_isDouble e x y z) (by positivity)

theorem genesis_isDouble : IsDouble (genesisConst : Rat) := by
  have := isDouble_nat (m := 0xffff) (by norm_num) 208
  convert this using 1
  norm_num [genesisConst]

theorem genesisConst_eq : genesisConst = genesisTarget := by decide +kernel

theorem rnd_genesis : rnd genesisConst = genesisTarget := by
  rw [rnd_double genesis_isDouble (by positivity), genesisConst_eq]

theorem genesis_lt : genesisTarget < 2 ^ 224 := by decide +kernel

theorem div_bound (t : Nat) (h : 0 < t) : ¬ ((genesisTarget : Rat) / t ≥ (overflowBound : Nat)) := by
  rw [not_le]
  have ht : (1 : Rat) ≤ t := by exact_mod_cast h
  have : (genesisTarget : Rat) / t ≤ genesisTarget := div_le_self (by positivity) ht
  refine lt_of_le_of_lt this ?_
  have : genesisTarget < overflowBound := by decide +kernel
  exact_mod_cast this

theorem difficulty_eq (bits : Bytes) (e x y z : UInt8) (rest : Bytes) (hb : hexDecodeIgnore bits = e :: x :: y :: z :: rest) :
    DifficultyFromBits bits = if codeTarget e x y z ≥ overflowBound then .err "value out of range"
      else if codeTarget e x y z = 0 then .ok .inf else .ok (.fin (rnd (genesisTarget / codeTarget e x y z))) := by
  unfold DifficultyFromBits
  dsimp only
  rw [hb]
  unfold getUint32BE
  rw [if_neg (by simp), Res.ok_bind]
  simp only [List.take, toCompactSize_eq]
  unfold targetToDifficulty parseFloat
  dsimp only
  by_cases h : codeTarget e x y z ≥ overflowBound
  · rw [if_pos h, if_pos h]; rfl
  · rw [if_neg h, if_neg h, Res.ok_bind, rnd_genesis, rnd_code]
    unfold fdiv
    by_cases h0 : codeTarget e x y z = 0
    · rw [if_pos h0, h0]; rfl
    · rw [if_neg h0, if_neg (by exact_mod_cast h0), if_neg (div_bound _ (by omega))]; rfl

/-- C57: for well-formed bits — hex, at least four bytes, exponent at least 3, sign bit clear, a target that is positive and below the largest
float64 — the result is the float64 nearest to the exact quotient of the genesis target and the expanded target. -/
theorem C57_correctly_rounded (bits : Bytes) (e x y z : UInt8) (rest : Bytes) (_hx : IsHex bits) (hb : hexDecodeIgnore bits = e :: x :: y :: z :: rest)
    (he : 3 ≤ e.toNat) (hs : x.toNat < 128) (t : Nat) (ht : ExpandTargetFromAsInt bits = .ok t) (h0 : 0 < t) (hlt : t < 2 ^ 1023) :
    ∃ d, DifficultyFromBits bits = .ok (.fin d) ∧ RoundsTo ((0xffff * 2 ^ 208 : Rat) / t) d := by
  rw [C56_target bits e x y z rest _hx hb, Res.ok.injEq] at ht
  have hc : codeTarget e x y z = t := by
    unfold compactTarget at ht
    rw [if_neg (by omega)] at ht
    have ht : compactMagnitude e x y z = t := by exact_mod_cast ht
    rw [← ht]
    unfold codeTarget compactMagnitude compactMantissa
    obtain ⟨k, hk⟩ : ∃ k, e.toNat = 3 + k := ⟨e.toNat - 3, by omega⟩
    rw [hk, show 3 + k - 3 = k by omega, pow_add, Nat.mod_eq_of_lt hs]
    rw [show ∀ m : Nat, m * (256 ^ 3 * 256 ^ k) = 256 ^ 3 * (m * 256 ^ k) by intro m; ring, Nat.mul_div_cancel_left _ (by norm_num)]
  refine ⟨rnd ((0xffff * 2 ^ 208 : Rat) / t), ?_, rnd_roundsTo (by positivity)⟩
  rw [difficulty_eq bits e x y z rest hb, hc, if_neg, if_neg (by omega)]
  · congr 4
    unfold genesisTarget; norm_num
  · have : (2 : Nat) ^ 1023 ≤ overflowBound := by decide +kernel
    omega

/-- non-vacuity: difficulty 1 of the genesis block, and a later block -/
example : DifficultyFromBits b!"1d00ffff" = .ok (.fin 1) ∧ DifficultyFromBits b!"1b0404cb" = .ok (.fin (8965099470472465 / 2 ^ 39)) := by
  decide +kernel

/-- C57: what the call does for every string. It panics exactly when fewer than four bytes are decoded before the first non-hex character (hex errors are
otherwise ignored); otherwise the four bytes give a number `t` (the 24 low bits, sign bit included, times `256^(e-3)`, with exponents below 3 taken as 3),
and the result is: an error if `t` is too large for a float64, `+Inf` for `t = 0`, the correctly rounded quotient otherwise. -/
theorem C57_outcomes (bits : Bytes) :
    (DifficultyFromBits bits = .panic ↔ (hexDecodeIgnore bits).length < 4) ∧
    (∀ e x y z rest, hexDecodeIgnore bits = e :: x :: y :: z :: rest →
      let t := (x.toNat * 65536 + y.toNat * 256 + z.toNat) * 256 ^ (e.toNat - 3)
      (2 ^ 1024 - 2 ^ 970 ≤ t → DifficultyFromBits bits = .err "value out of range") ∧
      (t = 0 → DifficultyFromBits bits = .ok .inf) ∧
      (0 < t → t < 2 ^ 1024 - 2 ^ 970 → ∃ d, DifficultyFromBits bits = .ok (.fin d) ∧ RoundsTo ((0xffff * 2 ^ 208 : Rat) / t) d)) := by
  constructor
  · rcases h : hexDecodeIgnore bits with _ | ⟨e, _ | ⟨x, _ | ⟨y, _ | ⟨z, rest⟩⟩⟩⟩
    case cons.cons.cons.cons =>
      rw [difficulty_eq bits e x y z rest h]
      split_ifs <;> simp
    all_goals simp [DifficultyFromBits, h, getUint32BE]
  · intro e x y z rest hb
    dsimp only
    have hd := difficulty_eq bits e x y z rest hb
    unfold codeTarget overflowBound at hd
    generalize ht : (x.toNat * 65536 + y.toNat * 256 + z.toNat) * 256 ^ (e.toNat - 3) = t at hd
    refine ⟨fun h => by rw [hd, if_pos h], fun h => ?_, fun h1 h2 => ?_⟩
    · rw [hd, if_neg (by rw [h]; decide +kernel), if_pos h]
    · refine ⟨rnd ((0xffff * 2 ^ 208 : Rat) / t), ?_, rnd_roundsTo (by positivity)⟩
      rw [hd, if_neg (by omega), if_neg (by omega)]
      congr 4
      unfold genesisTarget; norm_num

/-- non-vacuity: each outcome happens -/
example : DifficultyFromBits b!"1d00ff" = .panic ∧ DifficultyFromBits b!"1d000000" = .ok .inf ∧ DifficultyFromBits b!"8200ffff" = .err "value out of range" := by
  decide +kernel

/-- The order of the results: `+Inf` is above every number. -/
def F64.le : F64 → F64 → Prop
  | .fin a, .fin b => a ≤ b
  | _, .inf => True
  | .inf, .fin _ => False

/-- C57: a larger target never gives a larger difficulty, for well-formed bits. -/
theorem C57_antitone (bits bits' : Bytes) (e x y z e' x' y' z' : UInt8) (rest rest' : Bytes) (d d' : F64)
    (hx : IsHex bits) (hb : hexDecodeIgnore bits = e :: x :: y :: z :: rest) (he : 3 ≤ e.toNat) (hs : x.toNat < 128)
    (hx' : IsHex bits') (hb' : hexDecodeIgnore bits' = e' :: x' :: y' :: z' :: rest') (he' : 3 ≤ e'.toNat) (hs' : x'.toNat < 128)
    (t t' : Nat) (ht : ExpandTargetFromAsInt bits = .ok t) (ht' : ExpandTargetFromAsInt bits' = .ok t') (hle : t ≤ t')
    (hd : DifficultyFromBits bits = .ok d) (hd' : DifficultyFromBits bits' = .ok d') : F64.le d' d := by
  have code : ∀ (bits : Bytes) (e x y z : UInt8) (rest : Bytes) (t : Nat), IsHex bits → hexDecodeIgnore bits = e :: x :: y :: z :: rest →
      3 ≤ e.toNat → x.toNat < 128 → ExpandTargetFromAsInt bits = .ok t → codeTarget e x y z = t := by
    intro bits e x y z rest t hx hb he hs ht
    rw [C56_target bits e x y z rest hx hb, Res.ok.injEq] at ht
    unfold compactTarget at ht
    rw [if_neg (by omega)] at ht
    have ht : compactMagnitude e x y z = t := by exact_mod_cast ht
    rw [← ht]
    unfold codeTarget compactMagnitude compactMantissa
    obtain ⟨k, hk⟩ : ∃ k, e.toNat = 3 + k := ⟨e.toNat - 3, by omega⟩
    rw [hk, show 3 + k - 3 = k by omega, pow_add, Nat.mod_eq_of_lt hs]
    rw [show ∀ m : Nat, m * (256 ^ 3 * 256 ^ k) = 256 ^ 3 * (m * 256 ^ k) by intro m; ring, Nat.mul_div_cancel_left _ (by norm_num)]
  have c := code _ _ _ _ _ _ _ hx hb he hs ht
  have c' := code _ _ _ _ _ _ _ hx' hb' he' hs' ht'
  rw [difficulty_eq _ _ _ _ _ _ hb, c] at hd
  rw [difficulty_eq _ _ _ _ _ _ hb', c'] at hd'
  by_cases ho : t ≥ overflowBound
  · rw [if_pos ho] at hd; cases hd
  rw [if_neg ho] at hd
  by_cases ho' : t' ≥ overflowBound
  · rw [if_pos ho'] at hd'; cases hd'
  rw [if_neg ho'] at hd'
  by_cases h0 : t = 0
  · rw [if_pos h0, Res.ok.injEq] at hd
    subst hd
    cases d' <;> exact trivial
  · rw [if_neg h0, Res.ok.injEq] at hd
    rw [if_neg (by omega), Res.ok.injEq] at hd'
    subst hd hd'
    apply rnd_mono
    apply div_le_div_of_nonneg_left (by positivity)
    · exact_mod_cast Nat.pos_of_ne_zero h0
    · exact_mod_cast hle

/-- C57 violation: the number used by `DifficultyFromBits` is the expanded target only when the sign bit is clear and the exponent is at least 3
(or the mantissa is zero). -/
theorem C57_code_target_iff (e x y z : UInt8) :
    ((codeTarget e x y z : Int) = compactTarget e x y z) ↔ x.toNat < 128 ∧ (3 ≤ e.toNat ∨ compactMantissa x y z = 0) := by
  have h1 := x.toNat_lt
  by_cases hs : 128 ≤ x.toNat
  · unfold compactTarget
    rw [if_pos hs]
    have : 0 < codeTarget e x y z := by unfold codeTarget; positivity
    constructor
    · intro h; omega
    · intro h; omega
  · unfold compactTarget
    rw [if_neg hs]
    have hm : x.toNat * 65536 + y.toNat * 256 + z.toNat = compactMantissa x y z := by
      unfold compactMantissa; rw [Nat.mod_eq_of_lt (by omega)]
    unfold codeTarget compactMagnitude
    rw [hm, Int.ofNat_inj]
    generalize compactMantissa x y z = m
    by_cases he : 3 ≤ e.toNat
    · obtain ⟨k, hk⟩ : ∃ k, e.toNat = 3 + k := ⟨e.toNat - 3, by omega⟩
      rw [hk, show 3 + k - 3 = k by omega, pow_add, show m * (256 ^ 3 * 256 ^ k) = 256 ^ 3 * (m * 256 ^ k) by ring, Nat.mul_div_cancel_left _ (by norm_num)]
      simp; omega
    · rw [show e.toNat - 3 = 0 by omega, pow_zero, mul_one]
      constructor
      · intro h
        refine ⟨by omega, Or.inr ?_⟩
        by_contra h0
        have : m * 256 ^ e.toNat / 256 ^ 3 < m := by
          rw [Nat.div_lt_iff_lt_mul (by norm_num)]
          exact Nat.mul_lt_mul_of_pos_left (Nat.pow_lt_pow_right (by norm_num) (by omega)) (by omega)
        omega
      · rintro ⟨_, h | h⟩
        · exact absurd h he
        · rw [h]; norm_num

/-- C57 violations, concretely: exponent 1 (expanded target 0x12, divided by 0x123456), a negative target accepted, an invalid hex tail ignored. -/
theorem C57_violation :
    ExpandTargetFromAsInt b!"01123456" = .ok 0x12 ∧ DifficultyFromBits b!"01123456" = DifficultyFromBits b!"03123456" ∧
    ExpandTargetFromAsInt b!"04923456" = .ok (-0x12345600) ∧ (DifficultyFromBits b!"04923456").isOk ∧
    (ExpandTargetFromAsInt b!"1d00ffff!").isErr ∧ DifficultyFromBits b!"1d00ffff!" = .ok (.fin 1) := by
  decide +kernel

end Verif.Props
