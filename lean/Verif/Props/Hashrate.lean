import Verif.Props.Difficulty
import Verif.Props.HumanHash
/-!
# C68, C91: hash rate from difficulty
-/
namespace Verif.Props
open Verif Spec

theorem rnd_bounds {q : Rat} (h : 0 ≤ q) : q * (1 - 1 / 2 ^ 53) ≤ rnd q ∧ rnd q ≤ q * (1 + 1 / 2 ^ 53) := by
  have := rnd_rel_err h
  rw [abs_le] at this
  constructor <;> linarith [this.1, this.2]

/-- Expected number of hashes for difficulty 1: `2^256` over the target of the bits value; `R...` coins use regtest's bits 207fffff. -/
def hashesPerDifficulty (coin : Bytes) : Rat :=
  if coin.head? = some 82 then 2 ^ 256 / (0x7fffff * 256 ^ 29 : Rat) else 2 ^ 256 / (0xffff * 256 ^ 26 : Rat)

theorem genesisDiff_eq : genesisDiff = rnd (2 ^ 256 / (0xffff * 256 ^ 26 : Rat)) := by
  have h : ExpandTargetFromAsInt b!"1d00ffff" = .ok (0xffff * 256 ^ 26) := by decide +kernel
  unfold genesisDiff diffConst
  rw [h]
  dsimp only
  have : rnd (((0xffff * 256 ^ 26 : Int)) : Rat) = 0xffff * 256 ^ 26 := by
    have := rnd_double (isDouble_nat (m := 0xffff) (by norm_num) 208) (by positivity)
    norm_num at this ⊢
    exact this
  rw [this]

theorem regDiff_eq : regDiff = rnd (2 ^ 256 / (0x7fffff * 256 ^ 29 : Rat)) := by
  have h : ExpandTargetFromAsInt b!"207fffff" = .ok (0x7fffff * 256 ^ 29) := by decide +kernel
  unfold regDiff diffConst
  rw [h]
  dsimp only
  have : rnd (((0x7fffff * 256 ^ 29 : Int)) : Rat) = 0x7fffff * 256 ^ 29 := by
    have := rnd_double (isDouble_nat (m := 0x7fffff) (by norm_num) 232) (by positivity)
    norm_num at this ⊢
    exact this
  rw [this]

theorem perDiff_pos (coin : Bytes) : 0 < hashesPerDifficulty coin := by unfold hashesPerDifficulty; split_ifs <;> positivity
theorem perDiff_lo (coin : Bytes) : 1 ≤ hashesPerDifficulty coin := by unfold hashesPerDifficulty; split_ifs <;> norm_num
theorem perDiff_hi (coin : Bytes) : hashesPerDifficulty coin ≤ 2 ^ 33 := by unfold hashesPerDifficulty; split_ifs <;> norm_num

/-- The number of hashes, as computed: three roundings. -/
def workFloat (coin : Bytes) (diff : UInt64) : Rat := rnd (rnd diff.toNat * rnd (hashesPerDifficulty coin))

/-- Exact number of hashes. -/
def workExact (coin : Bytes) (diff : UInt64) : Rat := diff.toNat * hashesPerDifficulty coin

theorem work_bounds (coin : Bytes) (diff : UInt64) :
    workExact coin diff * (1 - 1 / 2 ^ 53) ^ 3 ≤ workFloat coin diff ∧ workFloat coin diff ≤ workExact coin diff * (1 + 1 / 2 ^ 53) ^ 3 := by
  unfold workExact workFloat
  have hP := perDiff_pos coin
  generalize hashesPerDifficulty coin = P at hP
  have hd0 : (0 : Rat) ≤ diff.toNat := by positivity
  generalize (diff.toNat : Rat) = d at hd0
  obtain ⟨a1, a2⟩ := rnd_bounds hd0
  obtain ⟨b1, b2⟩ := rnd_bounds hP.le
  have hu : (0 : Rat) < 1 - 1 / 2 ^ 53 := by norm_num
  have hu' : (0 : Rat) < 1 + 1 / 2 ^ 53 := by norm_num
  have hra := rnd_nonneg d
  have hrb := rnd_nonneg P
  obtain ⟨c1, c2⟩ := rnd_bounds (mul_nonneg hra hrb)
  constructor
  · calc d * P * (1 - 1 / 2 ^ 53) ^ 3 = (d * (1 - 1 / 2 ^ 53)) * (P * (1 - 1 / 2 ^ 53)) * (1 - 1 / 2 ^ 53) := by ring
      _ ≤ rnd d * rnd P * (1 - 1 / 2 ^ 53) := by
        apply mul_le_mul_of_nonneg_right _ hu.le
        exact mul_le_mul a1 b1 (mul_nonneg hP.le hu.le) hra
      _ ≤ _ := c1
  · calc rnd (rnd d * rnd P) ≤ rnd d * rnd P * (1 + 1 / 2 ^ 53) := c2
      _ ≤ (d * (1 + 1 / 2 ^ 53)) * (P * (1 + 1 / 2 ^ 53)) * (1 + 1 / 2 ^ 53) := by
        apply mul_le_mul_of_nonneg_right _ hu'.le
        exact mul_le_mul a2 b2 hrb (mul_nonneg hd0 hu'.le)
      _ = _ := by ring

theorem workExact_nonneg (coin : Bytes) (diff : UInt64) : 0 ≤ workExact coin diff := mul_nonneg (by positivity) (perDiff_pos coin).le
theorem workFloat_nonneg (coin : Bytes) (diff : UInt64) : 0 ≤ workFloat coin diff := rnd_nonneg _

theorem workFloat_hi (coin : Bytes) (diff : UInt64) : workFloat coin diff ≤ 2 ^ 98 := by
  have hdb : (diff.toNat : Rat) ≤ 2 ^ 64 := by exact_mod_cast diff.toNat_lt.le
  calc workFloat coin diff ≤ workExact coin diff * (1 + 1 / 2 ^ 53) ^ 3 := (work_bounds coin diff).2
    _ ≤ 2 ^ 64 * 2 ^ 33 * (1 + 1 / 2 ^ 53) ^ 3 := by
      apply mul_le_mul_of_nonneg_right _ (by positivity)
      exact mul_le_mul hdb (perDiff_hi coin) (perDiff_pos coin).le (by positivity)
    _ ≤ 2 ^ 98 := by norm_num

theorem workFloat_zero (coin : Bytes) (diff : UInt64) : workFloat coin diff = 0 ↔ diff = 0 := by
  constructor
  · intro h
    by_contra hd
    have hd' : 0 < diff.toNat := Nat.pos_of_ne_zero (fun e => hd (UInt64.toNat_inj.mp e))
    have hd' : (0 : Rat) < diff.toNat := by exact_mod_cast hd'
    have := rnd_pos_pos (mul_pos (rnd_pos_pos hd') (rnd_pos_pos (perDiff_pos coin)))
    unfold workFloat at h
    linarith
  · rintro rfl
    simp [workFloat, rnd_zero]

theorem workFloat_mono (coin : Bytes) {d d' : UInt64} (hd : d ≤ d') : workFloat coin d ≤ workFloat coin d' := by
  apply rnd_mono
  apply mul_le_mul_of_nonneg_right _ (rnd_nonneg _)
  apply rnd_mono
  exact_mod_cast (UInt64.le_iff_toNat_le.mp hd)

theorem pow_lt_overflow (k : Nat) (hk : k ≤ 1000) : (2 : Rat) ^ k < (overflowBound : Nat) := by
  have h1 : (2 : Nat) ^ 1000 < overflowBound := by decide +kernel
  have h2 : (2 : Nat) ^ k ≤ 2 ^ 1000 := Nat.pow_le_pow_right (by norm_num) hk
  exact_mod_cast lt_of_le_of_lt h2 h1

/-- Rounding of something that is zero or at least one. -/
theorem round_big {q : Rat} (neg : Bool) (h : q = 0 ∨ 1 ≤ q) (hb : q ≤ 2 ^ 200) : Double.round neg q = .fin neg (rnd q) := by
  unfold Double.round
  rw [if_neg (not_le.mpr (lt_of_le_of_lt hb (pow_lt_overflow 200 (by norm_num))))]
  rcases h with h | h
  · rw [h, rnd64_zero, rnd_zero]
  · rw [rnd64_normal (le_trans one_normal h)]

theorem hashrate_eq (c : UInt8) (cs : Bytes) (diff : UInt64) (s : Double) :
    DifficultyToHashrate (c :: cs) diff s = .ok ((Double.fin false (workFloat (c :: cs) diff)).div s) := by
  have hd : (diff.toNat : Rat) = 0 ∨ 1 ≤ (diff.toNat : Rat) := by
    rcases Nat.eq_zero_or_pos diff.toNat with h | h
    · left; exact_mod_cast h
    · right; exact_mod_cast h
  have hdb : (diff.toNat : Rat) ≤ 2 ^ 64 := by exact_mod_cast diff.toNat_lt.le
  have h1 : Double.ofUInt64 diff = .fin false (rnd diff.toNat) := round_big false hd (le_trans hdb (by norm_num))
  have h2 : (if c = 82 then Double.fin false regDiff else .fin false genesisDiff) = .fin false (rnd (hashesPerDifficulty (c :: cs))) := by
    unfold hashesPerDifficulty
    simp only [List.head?_cons, Option.some.injEq, genesisDiff_eq, regDiff_eq]
    split_ifs <;> rfl
  have h3 : (Double.fin false (rnd diff.toNat)).mul (.fin false (rnd (hashesPerDifficulty (c :: cs)))) = .fin false (workFloat (c :: cs) diff) := by
    unfold Double.mul
    dsimp only
    have p1 : 1 ≤ rnd (hashesPerDifficulty (c :: cs)) := by rw [← rnd_one]; exact rnd_mono (perDiff_lo _)
    have p2 : rnd (hashesPerDifficulty (c :: cs)) ≤ 2 ^ 33 := by
      have : rnd (2 ^ 33) = 2 ^ 33 := rnd_double (by have := isDouble_pow 33; simpa using this) (by norm_num)
      rw [← this]; exact rnd_mono (perDiff_hi _)
    have p3 : rnd diff.toNat ≤ 2 ^ 64 := by
      have : rnd (2 ^ 64) = 2 ^ 64 := rnd_double (by have := isDouble_pow 64; simpa using this) (by norm_num)
      rw [← this]; exact rnd_mono hdb
    refine round_big _ ?_ ?_
    · rcases hd with h | h
      · left; rw [h, rnd_zero, zero_mul]
      · right
        have : 1 ≤ rnd diff.toNat := by rw [← rnd_one]; exact rnd_mono h
        nlinarith
    · calc rnd diff.toNat * rnd (hashesPerDifficulty (c :: cs)) ≤ 2 ^ 64 * 2 ^ 33 := mul_le_mul p3 p2 (rnd_nonneg _) (by positivity)
        _ ≤ 2 ^ 200 := by norm_num
  unfold DifficultyToHashrate
  simp only [index, List.getElem?_cons_zero, Res.ok_bind, Res.pure_eq]
  rw [h1, h2, h3]

/-- C68: the call panics exactly on the empty ticker. -/
theorem C68_panic (coin : Bytes) (diff : UInt64) (s : Double) : DifficultyToHashrate coin diff s = .panic ↔ coin = [] := by
  rcases coin with _ | ⟨c, cs⟩
  · simp [DifficultyToHashrate, index]
  · rw [hashrate_eq]; simp

/-- C68: for a ticker that is not empty and a block time between a nanosecond and `10^300` seconds, the result is finite and within four float64 roundings of
`difficulty * 2^256 / target / seconds`. -/
theorem C68_value (coin : Bytes) (diff : UInt64) (s : Rat) (hc : coin ≠ []) (hs : 1 / 10 ^ 9 ≤ s) (hs2 : s ≤ 10 ^ 300) :
    ∃ r, DifficultyToHashrate coin diff (.fin false s) = .ok (.fin false r) ∧
      diff.toNat * hashesPerDifficulty coin / s * (1 - 1 / 2 ^ 53) ^ 4 ≤ r ∧ r ≤ diff.toNat * hashesPerDifficulty coin / s * (1 + 1 / 2 ^ 53) ^ 4 := by
  rcases coin with _ | ⟨c, cs⟩
  · exact absurd rfl hc
  have hs0 : 0 < s := lt_of_lt_of_le (by norm_num) hs
  rw [hashrate_eq]
  obtain ⟨lo, hi⟩ := work_bounds (c :: cs) diff
  have hw := workFloat_hi (c :: cs) diff
  have hw0 := workFloat_nonneg (c :: cs) diff
  have hw1 : workFloat (c :: cs) diff = 0 ∨ 1 ≤ workFloat (c :: cs) diff := by
    by_cases hd : diff = 0
    · left; exact (workFloat_zero _ _).mpr hd
    · right
      have : 1 ≤ diff := by
        rw [UInt64.le_iff_toNat_le]
        exact Nat.pos_of_ne_zero (fun e => hd (UInt64.toNat_inj.mp e))
      refine le_trans ?_ (workFloat_mono (c :: cs) this)
      unfold workFloat
      have h1 : rnd ((1 : UInt64).toNat : Rat) = 1 := by
        rw [show (1 : UInt64).toNat = 1 from rfl, Nat.cast_one]; exact rnd_one
      rw [h1, one_mul, ← rnd_one]
      apply rnd_mono
      rw [← rnd_one]
      exact rnd_mono (perDiff_lo _)
  have hfin : ¬ (workFloat (c :: cs) diff / s ≥ (overflowBound : Nat)) := by
    rw [not_le]
    calc workFloat (c :: cs) diff / s ≤ 2 ^ 98 / (1 / 10 ^ 9) := div_le_div₀ (by positivity) hw (by norm_num) hs
      _ < 2 ^ 200 := by norm_num
      _ < (overflowBound : Nat) := pow_lt_overflow 200 (by norm_num)
  have hr : rnd64 (workFloat (c :: cs) diff / s) = rnd (workFloat (c :: cs) diff / s) := by
    rcases hw1 with h | h
    · rw [h, zero_div, rnd64_zero, rnd_zero]
    · apply rnd64_normal
      calc minNormal ≤ 2 ^ (-1000 : Int) := by unfold minNormal; exact zpow_le_zpow_right₀ (by norm_num) (by norm_num)
        _ = 1 / 2 ^ (1000 : Nat) := by rw [zpow_neg, one_div]; norm_cast
        _ ≤ 1 / 10 ^ 300 := by
          apply one_div_le_one_div_of_le (by positivity)
          have : (10 : Nat) ^ 300 ≤ 2 ^ 1000 := by decide +kernel
          exact_mod_cast this
        _ ≤ workFloat (c :: cs) diff / s := div_le_div₀ hw0 h hs0 hs2
  have hu : (0 : Rat) < 1 - 1 / 2 ^ 53 := by norm_num
  have hu' : (0 : Rat) < 1 + 1 / 2 ^ 53 := by norm_num
  obtain ⟨e1, e2⟩ := rnd_bounds (div_nonneg hw0 hs0.le)
  refine ⟨rnd (workFloat (c :: cs) diff / s), ?_, ?_, ?_⟩
  · unfold Double.div Double.round
    dsimp only
    rw [if_neg hs0.ne', if_neg hfin, hr]; rfl
  · calc diff.toNat * hashesPerDifficulty (c :: cs) / s * (1 - 1 / 2 ^ 53) ^ 4 = workExact (c :: cs) diff * (1 - 1 / 2 ^ 53) ^ 3 / s * (1 - 1 / 2 ^ 53) := by
          unfold workExact; ring
      _ ≤ workFloat (c :: cs) diff / s * (1 - 1 / 2 ^ 53) := mul_le_mul_of_nonneg_right (div_le_div_of_nonneg_right lo hs0.le) hu.le
      _ ≤ _ := e1
  · calc rnd (workFloat (c :: cs) diff / s) ≤ workFloat (c :: cs) diff / s * (1 + 1 / 2 ^ 53) := e2
      _ ≤ workExact (c :: cs) diff * (1 + 1 / 2 ^ 53) ^ 3 / s * (1 + 1 / 2 ^ 53) := mul_le_mul_of_nonneg_right (div_le_div_of_nonneg_right hi hs0.le) hu'.le
      _ = _ := by unfold workExact; ring

/-- non-vacuity: a concrete value (the arguments of the repository's test) -/
example : b!"BSV" ≠ [] ∧ (1 : Rat) / 1000000000 ≤ 7 ∧ DifficultyToHashrate b!"BSV" 65535 (.fin false 7) = .ok (.fin false (2573485501354569 / 64)) := by
  refine ⟨by decide, by norm_num, by decide +kernel⟩

/-- The order of float64 numbers that are not NaN, as sign and magnitude (`-0` and `+0` are equal). -/
def Double.le : Double → Double → Prop
  | .nan, _ => False
  | _, .nan => False
  | .inf true, _ => True
  | _, .inf false => True
  | .inf false, _ => False
  | _, .inf true => False
  | .fin s a, .fin t b => (if s then -a else a) ≤ (if t then -b else b)

/-- C68: monotone in the difficulty, antitone in the block time, for positive finite block times (down to the subnormal ones). -/
theorem C68_monotone (coin : Bytes) (d d' : UInt64) (s s' : Rat) (hd : d ≤ d') (hs' : 0 < s') (hss : s' ≤ s) (r r' : Double)
    (h : DifficultyToHashrate coin d (.fin false s) = .ok r) (h' : DifficultyToHashrate coin d' (.fin false s') = .ok r') : Double.le r r' := by
  rcases coin with _ | ⟨c, cs⟩
  · simp [DifficultyToHashrate, index] at h
  rw [hashrate_eq, Res.ok.injEq] at h h'
  have hs : 0 < s := lt_of_lt_of_le hs' hss
  have hq : workFloat (c :: cs) d / s ≤ workFloat (c :: cs) d' / s' := div_le_div₀ (workFloat_nonneg _ _) (workFloat_mono _ hd) hs' hss
  unfold Double.div Double.round at h h'
  dsimp only at h h'
  rw [if_neg hs.ne'] at h
  rw [if_neg hs'.ne'] at h'
  by_cases o' : workFloat (c :: cs) d' / s' ≥ overflowBound
  · rw [if_pos o'] at h'
    subst h'
    split_ifs at h <;> subst h <;> exact trivial
  · rw [if_neg o'] at h'
    rw [if_neg (by intro o; exact o' (le_trans o hq))] at h
    subst h h'
    exact rnd64_mono hq

/-- non-vacuity -/
example : (21999 : UInt64) ≤ 22000 ∧ (0 : Rat) < 7 ∧ (7 : Rat) ≤ 8 := by decide +kernel

/-! ## C91: every block time -/

/-- C91: block times that are no positive numbers do not panic: NaN gives NaN; a zero block time gives an infinity with the sign of the zero, and NaN for
difficulty zero; an infinite block time gives a zero with its sign. -/
theorem C91_special (coin : Bytes) (diff : UInt64) (hc : coin ≠ []) :
    DifficultyToHashrate coin diff .nan = .ok .nan ∧
    (∀ neg, DifficultyToHashrate coin diff (.fin neg 0) = .ok (if diff = 0 then .nan else .inf neg)) ∧
    (∀ neg, DifficultyToHashrate coin diff (.inf neg) = .ok (.fin neg 0)) := by
  rcases coin with _ | ⟨c, cs⟩
  · exact absurd rfl hc
  refine ⟨?_, ?_, ?_⟩
  · rw [hashrate_eq]; rfl
  · intro neg
    rw [hashrate_eq]
    unfold Double.div
    dsimp only
    rw [if_pos rfl]
    congr 1
    by_cases hd : diff = 0
    · rw [if_pos hd, if_pos ((workFloat_zero _ _).mpr hd)]
    · rw [if_neg hd, if_neg (fun e => hd ((workFloat_zero _ _).mp e))]; simp
  · intro neg
    rw [hashrate_eq]
    unfold Double.div
    simp

/-- non-vacuity: printed, a zero block time shows an infinite rate, and difficulty zero at a zero block time shows NaN -/
example : b!"BSV" ≠ [] ∧ DifficultyToHashrate b!"BSV" 1 (.fin false 0) = .ok (.inf false) ∧ HumanHash (.inf false) = b!"+Inf ZH/s" ∧
    DifficultyToHashrate b!"BSV" 0 (.fin false 0) = .ok .nan ∧ HumanHash .nan = b!"NaN H/s" := by decide +kernel

/-- C91: for every block time that is a nonzero finite number, positive or negative, the result has the sign of the block time and is the correctly rounded
quotient of the rounded number of hashes and the magnitude of the block time: the nearest float64 (ties to even), or an infinity when the quotient is at
least `2^1024 - 2^970`. The rounded number of hashes is a float64 within three roundings of the exact one. -/
theorem C91_quotient (coin : Bytes) (diff : UInt64) (neg : Bool) (s : Rat) (hc : coin ≠ []) (hs : 0 < s) :
    ∃ w, IsDouble w ∧ diff.toNat * hashesPerDifficulty coin * (1 - 1 / 2 ^ 53) ^ 3 ≤ w ∧ w ≤ diff.toNat * hashesPerDifficulty coin * (1 + 1 / 2 ^ 53) ^ 3 ∧
      ((2 ^ 1024 - 2 ^ 970 ≤ w / s ∧ DifficultyToHashrate coin diff (.fin neg s) = .ok (.inf neg)) ∨
       (w / s < 2 ^ 1024 - 2 ^ 970 ∧ ∃ r, DifficultyToHashrate coin diff (.fin neg s) = .ok (.fin neg r) ∧ RoundsToFloat (w / s) r)) := by
  rcases coin with _ | ⟨c, cs⟩
  · exact absurd rfl hc
  obtain ⟨lo, hi⟩ := work_bounds (c :: cs) diff
  refine ⟨workFloat (c :: cs) diff, rnd_isDouble _, lo, hi, ?_⟩
  have ho : ((overflowBound : Nat) : Rat) = 2 ^ 1024 - 2 ^ 970 := by
    have : overflowBound = 2 ^ 1024 - 2 ^ 970 := rfl
    rw [this, Nat.cast_sub (by decide +kernel), Nat.cast_pow, Nat.cast_pow]; rfl
  rw [hashrate_eq, ← ho]
  unfold Double.div Double.round
  dsimp only
  rw [if_neg hs.ne']
  by_cases o : workFloat (c :: cs) diff / s ≥ (overflowBound : Nat)
  · left; rw [if_pos o]; exact ⟨o, by simp⟩
  · right; rw [if_neg o]
    refine ⟨not_le.mp o, rnd64 (workFloat (c :: cs) diff / s), by simp, ?_⟩
    exact rnd64_roundsTo (div_nonneg (workFloat_nonneg _ _) hs.le) (not_le.mp o)

/-- non-vacuity: a negative block time gives a negative rate, and a subnormal block time overflows -/
example : (0 : Rat) < 7 ∧ (0 : Rat) < 1 / 2 ^ 1074 ∧ DifficultyToHashrate b!"BSV" 65535 (.fin true 7) = .ok (.fin true (2573485501354569 / 64)) ∧
    DifficultyToHashrate b!"BSV" 65535 (.fin false (1 / 2 ^ 1074)) = .ok (.inf false) := by
  refine ⟨by norm_num, by positivity, by decide +kernel, by decide +kernel⟩

/-- C91: the sign of the block time is the sign of the result, whenever the result is a number. -/
theorem C91_sign (coin : Bytes) (diff : UInt64) (neg : Bool) (s : Rat) (r : Double) (h : DifficultyToHashrate coin diff (.fin neg s) = .ok r) :
    r = .nan ∨ r = .inf neg ∨ ∃ m, r = .fin neg m := by
  rcases coin with _ | ⟨c, cs⟩
  · simp [DifficultyToHashrate, index] at h
  rw [hashrate_eq, Res.ok.injEq] at h
  subst h
  unfold Double.div Double.round
  simp only [Bool.false_bne]
  split_ifs <;> simp

/-- non-vacuity -/
example : ∃ m, DifficultyToHashrate b!"BSV" 1 (.fin true 600) = .ok (.fin true m) ∧ 7158388 ≤ m ∧ m ≤ 7158389 :=
  ⟨rnd64 (genesisDiff / 600), by decide +kernel, by decide +kernel, by decide +kernel⟩

end Verif.Props
