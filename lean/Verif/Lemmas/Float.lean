import Verif.Model.Float
import Verif.Spec.Float
import Mathlib.Tactic.Ring
import Mathlib.Tactic.FieldSimp
import Mathlib.Tactic.NormNum
import Mathlib.Algebra.Order.Field.Power
/-!
# Rounding lemmas
-/
namespace Verif
open Spec

theorem roundEven_floor (q : Rat) : roundEven q = ⌊q⌋ ∨ roundEven q = ⌊q⌋ + 1 := by
  unfold roundEven; dsimp only; split_ifs <;> simp

theorem roundEven_err (q : Rat) : |q - roundEven q| ≤ 1 / 2 := by
  have h1 := Int.floor_le q
  have h2 := Int.lt_floor_add_one q
  unfold roundEven; dsimp only
  rw [abs_le]
  split_ifs <;> push_cast <;> constructor <;> linarith

theorem roundEven_mono {x y : Rat} (h : x ≤ y) : roundEven x ≤ roundEven y := by
  rcases eq_or_lt_of_le (Int.floor_le_floor h) with e | e
  · unfold roundEven
    dsimp only
    rw [← e]
    split_ifs <;> first | omega | (exfalso; linarith)
  · have h1 := roundEven_floor x
    have h2 := roundEven_floor y
    omega

theorem roundEven_int (n : Int) : roundEven n = n := by
  unfold roundEven
  simp

/-- No integer is nearer. -/
theorem roundEven_nearest (q : Rat) (k : Int) : |q - roundEven q| ≤ |q - k| := by
  have h1 := Int.floor_le q
  have h2 := Int.lt_floor_add_one q
  have hk : k ≤ ⌊q⌋ ∨ ⌊q⌋ + 1 ≤ k := by omega
  have hr : |q - roundEven q| ≤ q - ⌊q⌋ ∧ |q - roundEven q| ≤ ⌊q⌋ + 1 - q := by
    have := roundEven_err q
    unfold roundEven at this ⊢
    dsimp only at this ⊢
    simp only [abs_le]
    split_ifs <;> push_cast <;> refine ⟨⟨?_, ?_⟩, ⟨?_, ?_⟩⟩ <;> linarith
  rcases hk with hk | hk
  · have : (k : Rat) ≤ ⌊q⌋ := by exact_mod_cast hk
    calc _ ≤ q - ⌊q⌋ := hr.1
      _ ≤ q - k := by linarith
      _ ≤ _ := le_abs_self _
  · have : ((⌊q⌋ + 1 : Int) : Rat) ≤ k := by exact_mod_cast hk
    push_cast at this
    calc _ ≤ ⌊q⌋ + 1 - q := hr.2
      _ ≤ k - q := by linarith
      _ ≤ |k - q| := le_abs_self _
      _ = _ := abs_sub_comm _ _

/-- A tie is resolved to the even neighbour. -/
theorem roundEven_tie (q : Rat) (k : Int) (hne : k ≠ roundEven q) (h : |q - k| = |q - roundEven q|) : roundEven q % 2 = 0 := by
  have h1 := Int.floor_le q
  have h2 := Int.lt_floor_add_one q
  have he := roundEven_err q
  rw [← h] at he
  have hk : k = ⌊q⌋ ∨ k = ⌊q⌋ + 1 := by
    rw [abs_le] at he
    have a : (k : Rat) < ⌊q⌋ + 2 := by linarith
    have b : (⌊q⌋ : Rat) - 1 < k := by linarith
    have a' : k < ⌊q⌋ + 2 := by exact_mod_cast a
    have b' : ⌊q⌋ - 1 < k := by exact_mod_cast b
    omega
  unfold roundEven at hne h ⊢
  dsimp only at hne h ⊢
  split_ifs at hne h ⊢ with c1 c2 c3
  · rcases hk with rfl | rfl
    · exact absurd rfl hne
    · push_cast at h
      rw [abs_of_nonpos (by linarith), abs_of_nonneg (by linarith)] at h
      linarith
  · rcases hk with rfl | rfl
    · push_cast at h
      rw [abs_of_nonneg (by linarith), abs_of_nonpos (by linarith)] at h
      linarith
    · exact absurd rfl hne
  · exact c3
  · omega

/-- The binade of a positive rational. -/
theorem binade {q : Rat} (hq : 0 < q) : (2 : Rat) ^ (52 : Int) ≤ q / 2 ^ (Int.log 2 q - 52) ∧ q / 2 ^ (Int.log 2 q - 52) < 2 ^ (53 : Int) := by
  have h1 : ((2 : Nat) : Rat) ^ Int.log 2 q ≤ q := Int.zpow_log_le_self (by norm_num) hq
  have h2 : q < ((2 : Nat) : Rat) ^ (Int.log 2 q + 1) := Int.lt_zpow_succ_log_self (by norm_num) q
  push_cast at h1 h2
  have hp : (0 : Rat) < 2 ^ (Int.log 2 q - 52) := by positivity
  constructor
  · rw [le_div_iff₀ hp, ← zpow_add₀ (by norm_num)]
    rwa [show (52 : Int) + (Int.log 2 q - 52) = Int.log 2 q by ring]
  · rw [div_lt_iff₀ hp, ← zpow_add₀ (by norm_num)]
    rwa [show (53 : Int) + (Int.log 2 q - 52) = Int.log 2 q + 1 by ring]

theorem roundEven_range {x : Rat} {a b : Int} (h1 : (a : Rat) ≤ x) (h2 : x ≤ b) : a ≤ roundEven x ∧ roundEven x ≤ b := by
  constructor
  · rw [← roundEven_int a]; exact roundEven_mono h1
  · rw [← roundEven_int b]; exact roundEven_mono h2

theorem rnd_pos {q : Rat} (hq : 0 < q) : rnd q = (roundEven (q / 2 ^ (Int.log 2 q - 52)) : Rat) * 2 ^ (Int.log 2 q - 52) := by
  unfold rnd; rw [if_neg (by linarith)]

theorem signif_range {q : Rat} (hq : 0 < q) : 2 ^ 52 ≤ roundEven (q / 2 ^ (Int.log 2 q - 52)) ∧ roundEven (q / 2 ^ (Int.log 2 q - 52)) ≤ 2 ^ 53 := by
  obtain ⟨h1, h2⟩ := binade hq
  refine roundEven_range ?_ ?_
  · push_cast; exact_mod_cast h1
  · push_cast; exact_mod_cast h2.le

/-- Between the powers of two enclosing the argument. -/
theorem rnd_binade {q : Rat} (hq : 0 < q) : (2 : Rat) ^ Int.log 2 q ≤ rnd q ∧ rnd q ≤ 2 ^ (Int.log 2 q + 1) := by
  obtain ⟨h1, h2⟩ := signif_range hq
  have hp : (0 : Rat) < 2 ^ (Int.log 2 q - 52) := by positivity
  rw [rnd_pos hq]
  have e1 : (2 : Rat) ^ Int.log 2 q = 2 ^ (52 : Nat) * 2 ^ (Int.log 2 q - 52) := by
    rw [← zpow_natCast, ← zpow_add₀ (by norm_num)]; congr 1; push_cast; ring
  have e2 : (2 : Rat) ^ (Int.log 2 q + 1) = 2 ^ (53 : Nat) * 2 ^ (Int.log 2 q - 52) := by
    rw [← zpow_natCast, ← zpow_add₀ (by norm_num)]; congr 1; push_cast; ring
  rw [e1, e2]
  have h1' : (2 : Rat) ^ 52 ≤ (roundEven (q / 2 ^ (Int.log 2 q - 52)) : Rat) := by exact_mod_cast h1
  have h2' : (roundEven (q / 2 ^ (Int.log 2 q - 52)) : Rat) ≤ 2 ^ 53 := by exact_mod_cast h2
  exact ⟨mul_le_mul_of_nonneg_right h1' hp.le, mul_le_mul_of_nonneg_right h2' hp.le⟩

theorem rnd_zero : rnd 0 = 0 := by unfold rnd; simp

theorem rnd_pos_pos {q : Rat} (hq : 0 < q) : 0 < rnd q := lt_of_lt_of_le (by positivity) (rnd_binade hq).1

theorem rnd_nonneg (q : Rat) : 0 ≤ rnd q := by
  by_cases h : 0 < q
  · exact (rnd_pos_pos h).le
  · unfold rnd; rw [if_pos (by linarith)]

theorem log_mono {x y : Rat} (hx : 0 < x) (h : x ≤ y) : Int.log 2 x ≤ Int.log 2 y := Int.log_mono_right hx h

theorem rnd_mono {x y : Rat} (h : x ≤ y) : rnd x ≤ rnd y := by
  by_cases hx : 0 < x
  · have hy : 0 < y := lt_of_lt_of_le hx h
    rcases eq_or_lt_of_le (log_mono hx h) with e | e
    · rw [rnd_pos hx, rnd_pos hy, ← e]
      have hp : (0 : Rat) < 2 ^ (Int.log 2 x - 52) := by positivity
      apply mul_le_mul_of_nonneg_right _ hp.le
      exact_mod_cast roundEven_mono (div_le_div_of_nonneg_right h hp.le)
    · calc rnd x ≤ 2 ^ (Int.log 2 x + 1) := (rnd_binade hx).2
        _ ≤ 2 ^ Int.log 2 y := zpow_le_zpow_right₀ (by norm_num) e
        _ ≤ rnd y := (rnd_binade hy).1
  · have : rnd x = 0 := by unfold rnd; rw [if_pos (by linarith)]
    rw [this]; exact rnd_nonneg y

theorem rnd_abs_err {q : Rat} (hq : 0 < q) : |q - rnd q| ≤ 2 ^ (Int.log 2 q - 52) / 2 := by
  have hp : (0 : Rat) < 2 ^ (Int.log 2 q - 52) := by positivity
  rw [rnd_pos hq]
  have h := roundEven_err (q / 2 ^ (Int.log 2 q - 52))
  have e : q - (roundEven (q / 2 ^ (Int.log 2 q - 52)) : Rat) * 2 ^ (Int.log 2 q - 52) =
      (q / 2 ^ (Int.log 2 q - 52) - roundEven (q / 2 ^ (Int.log 2 q - 52))) * 2 ^ (Int.log 2 q - 52) := by
    rw [sub_mul, div_mul_cancel₀ _ hp.ne']
  rw [e, abs_mul, abs_of_pos hp]
  calc _ ≤ 1 / 2 * 2 ^ (Int.log 2 q - 52) := mul_le_mul_of_nonneg_right h hp.le
    _ = _ := by ring

/-- Relative error at most `2^-53`. -/
theorem rnd_rel_err {q : Rat} (hq : 0 ≤ q) : |q - rnd q| ≤ q / 2 ^ 53 := by
  rcases eq_or_lt_of_le hq with h | h
  · rw [← h, rnd_zero]; simp
  · refine le_trans (rnd_abs_err h) ?_
    have h1 : ((2 : Nat) : Rat) ^ Int.log 2 q ≤ q := Int.zpow_log_le_self (by norm_num) h
    push_cast at h1
    rw [zpow_sub₀ (by norm_num), div_div, show ((2 : Rat) ^ (52 : Int) * 2) = 2 ^ 53 by norm_num]
    exact div_le_div_of_nonneg_right h1 (by norm_num)

/-- The significand of a double on the grid of a binade. -/
theorem isDouble_signif {r : Rat} (hr : IsDouble r) (h0 : 0 < r) : ∃ m : Nat, 2 ^ 52 ≤ m ∧ m < 2 ^ 53 ∧ r = m * 2 ^ (Int.log 2 r - 52) := by
  rcases hr with rfl | ⟨m, e, h1, h2, rfl⟩
  · exact absurd h0 (lt_irrefl _)
  · refine ⟨m, h1, h2, ?_⟩
    congr 2
    have : Int.log 2 ((m : Rat) * 2 ^ e) = e + 52 := by
      apply le_antisymm
      · rw [← Int.lt_add_one_iff, ← Int.lt_zpow_iff_log_lt (by norm_num) h0]
        push_cast
        rw [show e + 52 + 1 = 53 + e by ring, zpow_add₀ (by norm_num)]
        apply mul_lt_mul_of_pos_right _ (by positivity)
        have : (m : Rat) < 2 ^ 53 := by exact_mod_cast h2
        simpa using this
      · rw [← Int.zpow_le_iff_le_log (by norm_num) h0]
        push_cast
        rw [show e + 52 = 52 + e by ring, zpow_add₀ (by norm_num)]
        apply mul_le_mul_of_nonneg_right _ (by positivity)
        have : (2 : Rat) ^ 52 ≤ m := by exact_mod_cast h1
        simpa using this
    rw [this]; ring

theorem rnd_double {r : Rat} (hr : IsDouble r) (h0 : 0 ≤ r) : rnd r = r := by
  rcases eq_or_lt_of_le h0 with h | h
  · rw [← h, rnd_zero]
  · obtain ⟨m, h1, h2, e⟩ := isDouble_signif hr h
    rw [rnd_pos h]
    have hp : (0 : Rat) < 2 ^ (Int.log 2 r - 52) := by positivity
    have : r / 2 ^ (Int.log 2 r - 52) = ((m : Int) : Rat) := by
      rw [div_eq_iff hp.ne']; exact_mod_cast e
    rw [this, roundEven_int, Int.cast_natCast, ← e]

theorem isDouble_nat {m : Nat} (h : m < 2 ^ 53) (e : Int) : IsDouble (m * 2 ^ e) := by
  rcases Nat.eq_zero_or_pos m with h0 | h0
  · left; rw [h0]; simp
  · right
    have hlog : Nat.log 2 m ≤ 52 := by
      have := Nat.log_lt_of_lt_pow (by omega) h
      omega
    have hp := Nat.pow_log_le_self 2 (by omega : m ≠ 0)
    have hp2 := Nat.lt_pow_succ_log_self (by norm_num : 1 < 2) m
    refine ⟨m * 2 ^ (52 - Nat.log 2 m), e - (52 - Nat.log 2 m : Nat), ?_, ?_, ?_⟩
    · calc 2 ^ 52 = 2 ^ Nat.log 2 m * 2 ^ (52 - Nat.log 2 m) := by rw [← pow_add]; congr 1; omega
        _ ≤ _ := Nat.mul_le_mul_right _ hp
    · calc m * 2 ^ (52 - Nat.log 2 m) < 2 ^ (Nat.log 2 m + 1) * 2 ^ (52 - Nat.log 2 m) := Nat.mul_lt_mul_of_pos_right hp2 (by positivity)
        _ = 2 ^ 53 := by rw [← pow_add]; congr 1; omega
    · push_cast
      rw [zpow_sub₀ (by norm_num), zpow_natCast]
      field_simp

theorem isDouble_pow (e : Int) : IsDouble (2 ^ e) := by
  have := isDouble_nat (m := 1) (by norm_num) e
  simpa using this

theorem rnd_isDouble (q : Rat) : IsDouble (rnd q) := by
  by_cases h : 0 < q
  · rw [rnd_pos h]
    obtain ⟨h1, h2⟩ := signif_range h
    generalize roundEven (q / 2 ^ (Int.log 2 q - 52)) = k at *
    obtain ⟨m, rfl⟩ := Int.eq_ofNat_of_zero_le (le_trans (by positivity) h1)
    rcases eq_or_lt_of_le h2 with e | e
    · rw [e]
      push_cast
      rw [show (9007199254740992 : Rat) = 2 ^ (53 : Int) by norm_num, ← zpow_add₀ (by norm_num)]
      exact isDouble_pow _
    · exact Or.inr ⟨m, _, by exact_mod_cast h1, by exact_mod_cast e, by push_cast; rfl⟩
  · left; unfold rnd; rw [if_pos (by linarith)]

/-- The model's rounding function is IEEE rounding to nearest, ties to even. -/
theorem rnd_roundsTo {q : Rat} (hq : 0 ≤ q) : RoundsTo q (rnd q) := by
  refine ⟨rnd_isDouble q, ?_⟩
  rcases eq_or_lt_of_le hq with h0 | hq
  · rw [← h0, rnd_zero]
    exact ⟨fun r' _ => by simp, fun r' _ _ _ => Or.inl rfl⟩
  have hp : (0 : Rat) < 2 ^ (Int.log 2 q - 52) := by positivity
  have hlo : ((2 : Nat) : Rat) ^ Int.log 2 q ≤ q := Int.zpow_log_le_self (by norm_num) hq
  have hhi : q < ((2 : Nat) : Rat) ^ (Int.log 2 q + 1) := Int.lt_zpow_succ_log_self (by norm_num) q
  push_cast at hlo hhi
  -- doubles on the grid of the binade
  have grid : ∀ k : Int, |q - rnd q| ≤ |q - k * 2 ^ (Int.log 2 q - 52)| := by
    intro k
    rw [rnd_pos hq]
    have h := roundEven_nearest (q / 2 ^ (Int.log 2 q - 52)) k
    have e : ∀ j : Int, q - (j : Rat) * 2 ^ (Int.log 2 q - 52) = (q / 2 ^ (Int.log 2 q - 52) - j) * 2 ^ (Int.log 2 q - 52) := by
      intro j; rw [sub_mul, div_mul_cancel₀ _ hp.ne']
    rw [e, e, abs_mul, abs_mul]
    exact mul_le_mul_of_nonneg_right h (abs_nonneg _)
  have e52 : (2 : Rat) ^ Int.log 2 q = ((2 ^ 52 : Int) : Rat) * 2 ^ (Int.log 2 q - 52) := by
    push_cast
    rw [show (4503599627370496 : Rat) = 2 ^ (52 : Int) by norm_num, ← zpow_add₀ (by norm_num)]; congr 1; ring
  have e53 : (2 : Rat) ^ (Int.log 2 q + 1) = ((2 ^ 53 : Int) : Rat) * 2 ^ (Int.log 2 q - 52) := by
    push_cast
    rw [show (9007199254740992 : Rat) = 2 ^ (53 : Int) by norm_num, ← zpow_add₀ (by norm_num)]; congr 1; ring
  have g52 := grid (2 ^ 52)
  have g53 := grid (2 ^ 53)
  rw [← e52] at g52
  rw [← e53] at g53
  rw [abs_of_nonneg (by linarith : 0 ≤ q - 2 ^ Int.log 2 q)] at g52
  rw [abs_of_nonpos (by linarith : q - 2 ^ (Int.log 2 q + 1) ≤ 0)] at g53
  have cases : ∀ r', IsDouble r' → |q - rnd q| < |q - r'| ∨ ∃ k : Int, r' = k * 2 ^ (Int.log 2 q - 52) := by
    intro r' hr'
    by_cases c1 : r' < 2 ^ Int.log 2 q
    · left
      rw [abs_of_nonneg (by linarith : 0 ≤ q - r')]
      linarith
    · by_cases c2 : 2 ^ (Int.log 2 q + 1) < r'
      · left
        rw [abs_of_nonpos (by linarith : q - r' ≤ 0)]
        linarith
      · right
        rcases eq_or_lt_of_le (not_lt.mp c2) with c3 | c3
        · exact ⟨2 ^ 53, by rw [c3, e53]⟩
        · have hr0 : 0 < r' := lt_of_lt_of_le (by positivity) (not_lt.mp c1)
          obtain ⟨m, _, _, e⟩ := isDouble_signif hr' hr0
          have : Int.log 2 r' = Int.log 2 q := by
            apply le_antisymm
            · rw [← Int.lt_add_one_iff, ← Int.lt_zpow_iff_log_lt (by norm_num) hr0]; exact_mod_cast c3
            · rw [← Int.zpow_le_iff_le_log (by norm_num) hr0]; exact_mod_cast not_lt.mp c1
          exact ⟨m, by rw [← this]; exact_mod_cast e⟩
  refine ⟨?_, ?_⟩
  · intro r' hr'
    rcases cases r' hr' with h | ⟨k, rfl⟩
    · exact h.le
    · exact grid k
  · intro r' hr' hne heq
    rcases cases r' hr' with h | ⟨k, rfl⟩
    · linarith
    · have htie : roundEven (q / 2 ^ (Int.log 2 q - 52)) % 2 = 0 := by
        apply roundEven_tie _ k
        · rintro rfl
          exact hne (rnd_pos hq).symm
        · rw [rnd_pos hq] at heq
          have e : ∀ j : Int, q - (j : Rat) * 2 ^ (Int.log 2 q - 52) = (q / 2 ^ (Int.log 2 q - 52) - j) * 2 ^ (Int.log 2 q - 52) := by
            intro j; rw [sub_mul, div_mul_cancel₀ _ hp.ne']
          rw [e, e, abs_mul, abs_mul] at heq
          exact mul_right_cancel₀ (abs_pos.mpr hp.ne').ne' heq
      rw [rnd_pos hq]
      obtain ⟨h1, h2⟩ := signif_range hq
      generalize roundEven (q / 2 ^ (Int.log 2 q - 52)) = j at *
      obtain ⟨m, rfl⟩ := Int.eq_ofNat_of_zero_le (le_trans (by positivity) h1)
      right
      rcases eq_or_lt_of_le h2 with e | e
      · refine ⟨2 ^ 52, Int.log 2 q - 51, le_refl _, by norm_num, by norm_num, ?_⟩
        rw [e]
        push_cast
        rw [show Int.log 2 q - 51 = Int.log 2 q - 52 + 1 by ring, zpow_add₀ (by norm_num)]
        norm_num
        ring
      · exact ⟨m, _, by exact_mod_cast h1, by exact_mod_cast e, by omega, by push_cast; rfl⟩

end Verif
