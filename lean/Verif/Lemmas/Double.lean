import Verif.Lemmas.Float
import Verif.Model.Double
/-!
# Rounding over the whole range of float64
-/
namespace Verif
open Spec

/-- The least normal number. -/
def minNormal : Rat := 2 ^ (-1022 : Int)
/-- The least positive number. -/
def tiny : Rat := 2 ^ (-1074 : Int)

theorem tiny_pos : 0 < tiny := by unfold tiny; positivity
theorem minNormal_pos : 0 < minNormal := by unfold minNormal; positivity
theorem minNormal_eq : minNormal = ((2 ^ 52 : Int) : Rat) * tiny := by
  unfold minNormal tiny
  push_cast
  rw [show (4503599627370496 : Rat) = 2 ^ (52 : Int) by norm_num, ← zpow_add₀ (by norm_num)]; rfl

theorem log_minNormal {q : Rat} (hq : 0 < q) : -1022 ≤ Int.log 2 q ↔ minNormal ≤ q := by
  rw [← Int.zpow_le_iff_le_log (by norm_num) hq]; unfold minNormal; norm_num

/-- In the normal range the rounding is to 53 bits. -/
theorem rnd64_normal {q : Rat} (h : minNormal ≤ q) : rnd64 q = rnd q := by
  have hq : 0 < q := lt_of_lt_of_le minNormal_pos h
  have := (log_minNormal hq).mpr h
  unfold rnd64
  rw [if_neg (by linarith), rnd_pos hq]
  dsimp only
  rw [max_eq_left (by omega)]

/-- Below the normal range the rounding is to a multiple of the least positive number. -/
theorem rnd64_small {q : Rat} (hq : 0 ≤ q) (h : q < minNormal) : rnd64 q = (roundEven (q / tiny) : Rat) * tiny := by
  rcases eq_or_lt_of_le hq with h0 | h0
  · rw [← h0]
    unfold rnd64
    rw [if_pos (le_refl _), zero_div]
    have := roundEven_int 0
    rw [Int.cast_zero] at this
    rw [this]; simp
  have : ¬ (-1022 ≤ Int.log 2 q) := by rw [log_minNormal h0]; linarith
  unfold rnd64
  rw [if_neg (by linarith)]
  dsimp only
  rw [max_eq_right (by omega)]
  rfl

theorem rnd64_zero : rnd64 0 = 0 := by unfold rnd64; simp

theorem small_range {q : Rat} (hq : 0 ≤ q) (h : q < minNormal) : 0 ≤ roundEven (q / tiny) ∧ roundEven (q / tiny) ≤ 2 ^ 52 := by
  have ht := tiny_pos
  refine roundEven_range ?_ ?_
  · rw [Int.cast_zero]; exact div_nonneg hq ht.le
  · rw [minNormal_eq] at h
    rw [div_le_iff₀ ht]; exact h.le

theorem rnd64_nonneg (q : Rat) : 0 ≤ rnd64 q := by
  by_cases hq : 0 ≤ q
  · by_cases h : q < minNormal
    · rw [rnd64_small hq h]
      have := (small_range hq h).1
      have : (0 : Rat) ≤ (roundEven (q / tiny) : Rat) := by exact_mod_cast this
      exact mul_nonneg this tiny_pos.le
    · rw [rnd64_normal (not_lt.mp h)]; exact rnd_nonneg q
  · unfold rnd64; rw [if_pos (by linarith)]

theorem rnd_minNormal : rnd minNormal = minNormal := rnd_double (isDouble_pow _) minNormal_pos.le

theorem rnd64_mono {x y : Rat} (h : x ≤ y) : rnd64 x ≤ rnd64 y := by
  by_cases hx : 0 ≤ x
  · by_cases h1 : x < minNormal
    · by_cases h2 : y < minNormal
      · rw [rnd64_small hx h1, rnd64_small (le_trans hx h) h2]
        apply mul_le_mul_of_nonneg_right _ tiny_pos.le
        exact_mod_cast roundEven_mono (div_le_div_of_nonneg_right h tiny_pos.le)
      · rw [rnd64_small hx h1, rnd64_normal (not_lt.mp h2)]
        calc (roundEven (x / tiny) : Rat) * tiny ≤ ((2 ^ 52 : Int) : Rat) * tiny := by
              apply mul_le_mul_of_nonneg_right _ tiny_pos.le
              exact_mod_cast (small_range hx h1).2
          _ = rnd minNormal := by rw [rnd_minNormal, minNormal_eq]
          _ ≤ rnd y := rnd_mono (not_lt.mp h2)
    · rw [rnd64_normal (not_lt.mp h1), rnd64_normal (le_trans (not_lt.mp h1) h)]; exact rnd_mono h
  · have : rnd64 x = 0 := by unfold rnd64; rw [if_pos (by linarith)]
    rw [this]; exact rnd64_nonneg y

/-- The error of one rounding: relative `2^-53`, or absolute `2^-1075`. -/
theorem rnd64_err {q : Rat} (hq : 0 ≤ q) : |q - rnd64 q| ≤ max (q / 2 ^ 53) (2 ^ (-1075 : Int)) := by
  by_cases h : q < minNormal
  · refine le_trans ?_ (le_max_right _ _)
    rw [rnd64_small hq h]
    have ht := tiny_pos
    have e : q - (roundEven (q / tiny) : Rat) * tiny = (q / tiny - roundEven (q / tiny)) * tiny := by
      rw [sub_mul, div_mul_cancel₀ _ ht.ne']
    rw [e, abs_mul, abs_of_pos ht]
    calc _ ≤ 1 / 2 * tiny := mul_le_mul_of_nonneg_right (roundEven_err _) ht.le
      _ = 2 ^ (-1 : Int) * 2 ^ (-1074 : Int) := by unfold tiny; norm_num
      _ = _ := by rw [← zpow_add₀ (by norm_num)]; rfl
  · rw [rnd64_normal (not_lt.mp h)]
    exact le_trans (rnd_rel_err hq) (le_max_left _ _)

/-! ## Finite float64 magnitudes -/

theorem isFloat_isDouble {r : Rat} (h : IsFloat r) : IsDouble r := by
  obtain ⟨m, e, hm, _, _, rfl⟩ := h
  exact isDouble_nat hm e

theorem isFloat_nonneg {r : Rat} (h : IsFloat r) : 0 ≤ r := by
  obtain ⟨m, e, _, _, _, rfl⟩ := h
  positivity

theorem isFloat_tiny {r : Rat} (h : IsFloat r) : ∃ k : Int, r = k * tiny := by
  obtain ⟨m, e, _, he, _, rfl⟩ := h
  obtain ⟨n, hn⟩ : ∃ n : Nat, e = -1074 + n := ⟨(e + 1074).toNat, by omega⟩
  refine ⟨m * 2 ^ n, ?_⟩
  unfold tiny
  push_cast
  rw [hn, zpow_add₀ (by norm_num), zpow_natCast]; ring

theorem overflow_eq : ((overflowBound : Nat) : Rat) = ((2 ^ 53 : Int) : Rat) * 2 ^ (971 : Int) - 2 ^ (970 : Int) := by
  have : overflowBound = 2 ^ 53 * 2 ^ 971 - 2 ^ 970 := by decide +kernel
  rw [this, Nat.cast_sub (by decide +kernel)]
  rw [show (971 : Int) = ((971 : Nat) : Int) from rfl, show (970 : Int) = ((970 : Nat) : Int) from rfl, zpow_natCast, zpow_natCast]
  rw [Nat.cast_mul, Nat.cast_pow, Nat.cast_pow, Nat.cast_pow, Int.cast_pow]
  rfl

/-- Every finite float64 is below the overflow bound. -/
theorem isFloat_lt {r : Rat} (h : IsFloat r) : r < (overflowBound : Nat) := by
  obtain ⟨m, e, hm, _, he, rfl⟩ := h
  rw [overflow_eq]
  have h1 : (m : Rat) * 2 ^ e ≤ m * 2 ^ (971 : Int) := by
    apply mul_le_mul_of_nonneg_left _ (by positivity)
    exact zpow_le_zpow_right₀ (by norm_num) he
  have h2 : (m : Rat) ≤ 2 ^ 53 - 1 := by
    have : m + 1 ≤ 2 ^ 53 := hm
    have : ((m + 1 : Nat) : Rat) ≤ ((2 ^ 53 : Nat) : Rat) := by exact_mod_cast this
    push_cast at this; linarith
  have h3 : (m : Rat) * 2 ^ (971 : Int) ≤ (2 ^ 53 - 1) * 2 ^ (971 : Int) := mul_le_mul_of_nonneg_right h2 (by positivity)
  have h4 : (2 : Rat) ^ (971 : Int) = 2 * 2 ^ (970 : Int) := by
    rw [show (971 : Int) = 1 + 970 by norm_num, zpow_add₀ (by norm_num)]; norm_num
  have h5 : (0 : Rat) < 2 ^ (970 : Int) := by positivity
  push_cast
  generalize (2 : Rat) ^ (970 : Int) = t at *
  rw [h4] at h1 h3 ⊢
  clear h4 h2 hm he
  refine lt_of_le_of_lt (le_trans h1 h3) ?_
  norm_num
  linarith

/-- A number below the overflow bound is in a binade of exponent at most 1023. -/
theorem log_of_lt {q : Rat} (hq : 0 < q) (h : q < (overflowBound : Nat)) : Int.log 2 q ≤ 1023 := by
  rw [← Int.lt_add_one_iff, ← Int.lt_zpow_iff_log_lt (by norm_num) hq]
  refine lt_of_lt_of_le h ?_
  have : overflowBound ≤ 2 ^ 1024 := by decide +kernel
  have : ((overflowBound : Nat) : Rat) ≤ ((2 ^ 1024 : Nat) : Rat) := by exact_mod_cast this
  rw [show ((1023 : Int) + 1) = ((1024 : Nat) : Int) by norm_num, zpow_natCast]
  exact_mod_cast this

/-- A 53-bit significand on the binade of a number below the overflow bound: the rounding never reaches 2^1024. -/
theorem signif_lt {q : Rat} (h : q < (overflowBound : Nat)) (hl : Int.log 2 q = 1023) :
    roundEven (q / 2 ^ (Int.log 2 q - 52)) ≤ 2 ^ 53 - 1 := by
  rw [hl]
  have hx : q / 2 ^ ((1023 : Int) - 52) < 2 ^ 53 - 1 / 2 := by
    rw [overflow_eq] at h
    rw [div_lt_iff₀ (by positivity)]
    have h4 : (2 : Rat) ^ (971 : Int) = 2 * 2 ^ (970 : Int) := by
      rw [show (971 : Int) = 1 + 970 by norm_num, zpow_add₀ (by norm_num)]; norm_num
    rw [show (1023 : Int) - 52 = 971 by norm_num]
    push_cast at h
    generalize (2 : Rat) ^ (970 : Int) = t at *
    rw [h4] at h ⊢
    linarith
  generalize q / 2 ^ ((1023 : Int) - 52) = x at hx
  have h1 := roundEven_err x
  rw [abs_le] at h1
  have : (roundEven x : Rat) < ((2 ^ 53 : Int) : Rat) := by push_cast; linarith [h1.1]
  have : roundEven x < 2 ^ 53 := by exact_mod_cast this
  omega

theorem isFloat_ofInt {k : Int} {e : Int} (h0 : 0 ≤ k) (h1 : k ≤ 2 ^ 53) (h2 : k = 2 ^ 53 → e < 971) (h3 : -1074 ≤ e) (h4 : e ≤ 971) : IsFloat (k * 2 ^ e) := by
  obtain ⟨m, rfl⟩ := Int.eq_ofNat_of_zero_le h0
  rcases eq_or_lt_of_le h1 with h | h
  · refine ⟨2 ^ 52, e + 1, by norm_num, by omega, by have := h2 h; omega, ?_⟩
    rw [h, zpow_add₀ (by norm_num)]; push_cast; ring
  · exact ⟨m, e, by exact_mod_cast h, h3, h4, by push_cast; rfl⟩

theorem evenFloat_ofInt {k : Int} {e : Int} (h0 : 0 ≤ k) (h1 : k ≤ 2 ^ 53) (h2 : k = 2 ^ 53 → e < 971) (h3 : -1074 ≤ e) (h4 : e ≤ 971)
    (hn : 2 ^ 52 ≤ k ∨ e = -1074) (hev : k % 2 = 0) : EvenFloat (k * 2 ^ e) := by
  obtain ⟨m, rfl⟩ := Int.eq_ofNat_of_zero_le h0
  rcases eq_or_lt_of_le h1 with h | h
  · refine ⟨2 ^ 52, e + 1, by norm_num, by omega, by have := h2 h; omega, Or.inl (le_refl _), by norm_num, ?_⟩
    rw [h, zpow_add₀ (by norm_num)]; push_cast; ring
  · refine ⟨m, e, by exact_mod_cast h, h3, h4, ?_, by omega, by push_cast; rfl⟩
    rcases hn with hn | hn
    · left; exact_mod_cast hn
    · exact Or.inr hn

/-- The significand and exponent chosen by the rounding. -/
theorem rnd64_shape {q : Rat} (hq : 0 ≤ q) (h : q < (overflowBound : Nat)) :
    ∃ (k e : Int), rnd64 q = k * 2 ^ e ∧ k = roundEven (q / 2 ^ e) ∧ 0 ≤ k ∧ k ≤ 2 ^ 53 ∧ (k = 2 ^ 53 → e < 971) ∧ -1074 ≤ e ∧ e ≤ 971 ∧ (2 ^ 52 ≤ k ∨ e = -1074) := by
  by_cases hs : q < minNormal
  · obtain ⟨h1, h2⟩ := small_range hq hs
    exact ⟨roundEven (q / tiny), -1074, rnd64_small hq hs, rfl, h1, le_trans h2 (by norm_num), by omega, le_refl _, by norm_num, Or.inr rfl⟩
  · have hq0 : 0 < q := lt_of_lt_of_le minNormal_pos (not_lt.mp hs)
    have hlo := (log_minNormal hq0).mpr (not_lt.mp hs)
    have hhi := log_of_lt hq0 h
    obtain ⟨h1, h2⟩ := signif_range hq0
    refine ⟨roundEven (q / 2 ^ (Int.log 2 q - 52)), Int.log 2 q - 52, by rw [rnd64_normal (not_lt.mp hs), rnd_pos hq0], rfl, by omega, h2, ?_, by omega, by omega, Or.inl h1⟩
    intro he
    by_contra hc
    have := signif_lt h (by omega)
    omega

theorem rnd64_isFloat {q : Rat} (hq : 0 ≤ q) (h : q < (overflowBound : Nat)) : IsFloat (rnd64 q) := by
  obtain ⟨k, e, he, _, h0, h1, h2, h3, h4, _⟩ := rnd64_shape hq h
  rw [he]; exact isFloat_ofInt h0 h1 h2 h3 h4

theorem rnd64_float {r : Rat} (h : IsFloat r) : rnd64 r = r := by
  by_cases hs : r < minNormal
  · rw [rnd64_small (isFloat_nonneg h) hs]
    obtain ⟨k, rfl⟩ := isFloat_tiny h
    rw [mul_div_cancel_right₀ _ tiny_pos.ne', roundEven_int]
  · rw [rnd64_normal (not_lt.mp hs)]
    exact rnd_double (isFloat_isDouble h) (isFloat_nonneg h)

/-- The model's rounding is IEEE-754 rounding to nearest, ties to even, over all of float64. -/
theorem rnd64_roundsTo {q : Rat} (hq : 0 ≤ q) (h : q < (overflowBound : Nat)) : RoundsToFloat q (rnd64 q) := by
  refine ⟨rnd64_isFloat hq h, ?_⟩
  by_cases hs : q < minNormal
  · have ht := tiny_pos
    rw [rnd64_small hq hs]
    have e : ∀ j : Int, q - (j : Rat) * tiny = (q / tiny - j) * tiny := by
      intro j; rw [sub_mul, div_mul_cancel₀ _ ht.ne']
    constructor
    · intro r' hr'
      obtain ⟨k, rfl⟩ := isFloat_tiny hr'
      rw [e, e, abs_mul, abs_mul]
      exact mul_le_mul_of_nonneg_right (roundEven_nearest _ _) (abs_nonneg _)
    · intro r' hr' hne heq
      obtain ⟨k, rfl⟩ := isFloat_tiny hr'
      obtain ⟨h1, h2⟩ := small_range hq hs
      refine evenFloat_ofInt (e := -1074) h1 (le_trans h2 (by norm_num)) (by omega) (le_refl _) (by norm_num) (Or.inr rfl) ?_
      apply roundEven_tie _ k
      · rintro rfl; exact hne rfl
      · rw [e, e, abs_mul, abs_mul] at heq
        exact mul_right_cancel₀ (abs_pos.mpr ht.ne').ne' heq
  · have hq0 : 0 < q := lt_of_lt_of_le minNormal_pos (not_lt.mp hs)
    rw [rnd64_normal (not_lt.mp hs)]
    obtain ⟨_, hn, ht⟩ := rnd_roundsTo hq
    refine ⟨fun r' hr' => hn r' (isFloat_isDouble hr'), fun r' hr' hne heq => ?_⟩
    have hev := ht r' (isFloat_isDouble hr') hne heq
    have hF := rnd64_isFloat hq h
    rw [rnd64_normal (not_lt.mp hs)] at hF
    have hlo : minNormal ≤ rnd q := by rw [← rnd_minNormal]; exact rnd_mono (not_lt.mp hs)
    generalize rnd q = r at *
    rcases hev with h0 | ⟨m, e, h1, h2, h3, h4⟩
    · have := minNormal_pos; linarith
    · have hr0 : 0 < r := lt_of_lt_of_le minNormal_pos hlo
      have hlog : Int.log 2 r = e + 52 := by
        apply le_antisymm
        · rw [← Int.lt_add_one_iff, ← Int.lt_zpow_iff_log_lt (by norm_num) hr0, h4]
          push_cast
          rw [show e + 52 + 1 = 53 + e by ring, zpow_add₀ (by norm_num)]
          apply mul_lt_mul_of_pos_right _ (by positivity)
          have : (m : Rat) < 2 ^ 53 := by exact_mod_cast h2
          simpa using this
        · rw [← Int.zpow_le_iff_le_log (by norm_num) hr0, h4]
          push_cast
          rw [show e + 52 = 52 + e by ring, zpow_add₀ (by norm_num)]
          apply mul_le_mul_of_nonneg_right _ (by positivity)
          have : (2 : Rat) ^ 52 ≤ m := by exact_mod_cast h1
          simpa using this
      have a1 := (log_minNormal hr0).mpr hlo
      have a2 := log_of_lt hr0 (isFloat_lt hF)
      exact ⟨m, e, h2, by omega, by omega, Or.inl h1, h3, h4⟩

end Verif
