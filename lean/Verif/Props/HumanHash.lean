import Verif.Lemmas.Double
import Verif.Lemmas.Base58
import Verif.Spec.Decimal
/-!
# C66, C90: human-readable hash rates
-/
namespace Verif.Props
open Verif Spec

theorem decValue_append (a b : Bytes) : decValue (a ++ b) = decValue a * 10 ^ b.length + decValue b := by
  induction b using List.reverseRecOn with
  | nil => simp [decValue]
  | append_singleton b c ih =>
    rw [← List.append_assoc]
    unfold decValue at *
    rw [List.foldl_append (l := a ++ b), ih, List.foldl_append (l := b)]
    simp only [List.foldl_cons, List.foldl_nil, List.length_append, List.length_cons, List.length_nil, pow_succ]
    ring

theorem digit_toNat {d : Nat} (h : d < 10) : (UInt8.ofNat (48 + d)).toNat = 48 + d := by
  rw [UInt8.toNat_ofNat']; omega

theorem digit_isDigit {d : Nat} (h : d < 10) : IsDigit (UInt8.ofNat (48 + d)) := by
  unfold IsDigit; rw [digit_toNat h]; omega

theorem decValue_digits (ds : List Nat) (h : ∀ d ∈ ds, d < 10) : decValue (ds.reverse.map fun d => UInt8.ofNat (48 + d)) = digVal 10 ds := by
  induction ds with
  | nil => rfl
  | cons d ds ih =>
    have hd := h d (by simp)
    rw [List.reverse_cons, List.map_append, decValue_append, ih (fun x hx => h x (by simp [hx]))]
    simp only [List.map_cons, List.map_nil, List.length_cons, List.length_nil, digVal, decValue, List.foldl_cons, List.foldl_nil, digit_toNat hd]
    omega

theorem decimal_spec (n : Nat) : IsNumeral (decimal n) ∧ decValue (decimal n) = n := by
  unfold decimal
  split_ifs with h
  · subst h
    refine ⟨⟨by simp, ?_, by simp⟩, rfl⟩
    intro c hc; simp at hc; subst hc; unfold IsDigit; decide
  · obtain ⟨h1, h2, h3⟩ := digits_full 10 (by norm_num) n
    generalize digitsLE 10 (n.log2 + 1) n = ds at *
    refine ⟨⟨?_, ?_, ?_⟩, ?_⟩
    · intro e
      simp at e; subst e
      simp [digVal] at h1; omega
    · intro c hc
      simp only [List.mem_map, List.mem_reverse] at hc
      obtain ⟨d, hd, rfl⟩ := hc
      exact digit_isDigit (h2 d hd)
    · intro hh
      rcases hl : ds.getLast? with _ | d
      · rw [List.getLast?_eq_none_iff] at hl
        subst hl; simp [digVal] at h1; omega
      · have hd := h3 d hl
        have hd10 := h2 d (List.mem_of_getLast? hl)
        rw [List.head?_map, List.head?_reverse, hl] at hh
        simp only [Option.map_some, Option.some.injEq] at hh
        have := congrArg UInt8.toNat hh
        rw [digit_toNat hd10] at this
        simp at this; exact absurd this hd
    · rw [decValue_digits ds h2, h1]

theorem takeWhile_all {s : Bytes} (h : ∀ c ∈ s, IsDigit c) (t : Bytes) : (s ++ 46 :: t).takeWhile (· ≠ 46) = s ∧ (s ++ 46 :: t).dropWhile (· ≠ 46) = 46 :: t := by
  induction s with
  | nil => simp
  | cons c s ih =>
    have hc : c ≠ 46 := by
      rintro rfl
      have := h 46 (by simp)
      unfold IsDigit at this
      revert this; decide
    obtain ⟨h1, h2⟩ := ih (fun x hx => h x (by simp [hx]))
    simp only [List.cons_append, List.takeWhile_cons, List.dropWhile_cons]
    simp [hc]
    exact ⟨by simpa using h1, by simpa using h2⟩

theorem hashRate_shown (n : Nat) (unit : Bytes) :
    let s := decimal (n / 100) ++ [46] ++ [UInt8.ofNat (48 + n % 100 / 10), UInt8.ofNat (48 + n % 10)] ++ [32] ++ unit
    IsHashRate unit s ∧ shownHundredths s = n ∧ shownUnit s = unit := by
  intro s
  obtain ⟨hnum, hval⟩ := decimal_spec (n / 100)
  have h1 : n % 100 / 10 < 10 := by omega
  have h2 : n % 10 < 10 := by omega
  have hs : s = decimal (n / 100) ++ 46 :: ([UInt8.ofNat (48 + n % 100 / 10), UInt8.ofNat (48 + n % 10), 32] ++ unit) := by
    simp [s]
  obtain ⟨t1, t2⟩ := takeWhile_all hnum.2.1 ([UInt8.ofNat (48 + n % 100 / 10), UInt8.ofNat (48 + n % 10), 32] ++ unit)
  refine ⟨⟨_, _, _, hnum, digit_isDigit h1, digit_isDigit h2, by simp [s]⟩, ?_, ?_⟩
  · unfold shownHundredths beforeDot afterDot
    rw [hs, t1, t2, hval]
    simp only [List.drop_succ_cons, List.drop_zero, List.cons_append, List.take_succ_cons, List.take_zero, decValue, List.foldl_cons, List.foldl_nil,
      digit_toNat h1, digit_toNat h2]
    omega
  · unfold shownUnit afterDot
    rw [hs, t2]
    rfl

theorem one_normal : minNormal ≤ 1 := by
  unfold minNormal
  rw [show (1 : Rat) = 2 ^ (0 : Int) from rfl]
  exact zpow_le_zpow_right₀ (by norm_num) (by norm_num)

/-- Division by a power of ten not above the number: the quotient is normal and does not overflow. -/
theorem div_unit {val : Rat} (hf : IsFloat val) (k : Nat) (h : (10 : Rat) ^ k ≤ val) :
    (Double.fin false val).div (.fin false (10 ^ k)) = .fin false (rnd (val / 10 ^ k)) := by
  have hp : (0 : Rat) < 10 ^ k := by positivity
  have h1 : 1 ≤ val / 10 ^ k := by rw [le_div_iff₀ hp, one_mul]; exact h
  have h2 : val / 10 ^ k ≤ val := div_le_self (isFloat_nonneg hf) (one_le_pow₀ (by norm_num))
  unfold Double.div Double.round
  dsimp only
  rw [if_neg hp.ne', if_neg (not_le.mpr (lt_of_le_of_lt h2 (isFloat_lt hf))), rnd64_normal (le_trans one_normal h1)]
  rfl

/-- The scaled value of each unit. -/
theorem humanScale_cases (val : Rat) (hf : IsFloat val) :
    ∃ k unit, (k, unit) ∈ hashUnits ∧ (k ≠ 0 → (10 : Rat) ^ k ≤ val) ∧ (k ≠ 21 → val < 10 ^ (k + 3)) ∧
      humanScale (.fin false val) = (.fin false (if k = 0 then val else rnd (val / 10 ^ k)), unit) := by
  unfold humanScale
  simp only [Double.ge, Bool.not_false, Bool.true_and, decide_eq_true_eq]
  split_ifs with h1 h2 h3 h4 h5 h6 h7
  · exact ⟨21, b!"ZH/s", by simp [hashUnits], fun _ => h1, by simp, by rw [div_unit hf 21 h1]; rfl⟩
  · exact ⟨18, b!"EH/s", by simp [hashUnits], fun _ => h2, fun _ => not_le.mp h1, by rw [div_unit hf 18 h2]; rfl⟩
  · exact ⟨15, b!"PH/s", by simp [hashUnits], fun _ => h3, fun _ => not_le.mp h2, by rw [div_unit hf 15 h3]; rfl⟩
  · exact ⟨12, b!"TH/s", by simp [hashUnits], fun _ => h4, fun _ => not_le.mp h3, by rw [div_unit hf 12 h4]; rfl⟩
  · exact ⟨9, b!"GH/s", by simp [hashUnits], fun _ => h5, fun _ => not_le.mp h4, by rw [div_unit hf 9 h5]; rfl⟩
  · exact ⟨6, b!"MH/s", by simp [hashUnits], fun _ => h6, fun _ => not_le.mp h5, by rw [div_unit hf 6 h6]; rfl⟩
  · exact ⟨3, b!"kH/s", by simp [hashUnits], fun _ => h7, fun _ => not_le.mp h6, by rw [div_unit hf 3 h7]; rfl⟩
  · exact ⟨0, b!"H/s", by simp [hashUnits], by simp, fun _ => by simpa using h7, rfl⟩

/-- What is printed, in terms of the scaled value. -/
theorem humanHash_shown {val v : Rat} {unit : Bytes} (h : humanScale (.fin false val) = (.fin false v, unit)) :
    IsHashRate unit (HumanHash (.fin false val)) ∧ shownHundredths (HumanHash (.fin false val)) = (roundEven (v * 100)).toNat ∧
    shownUnit (HumanHash (.fin false val)) = unit := by
  unfold HumanHash
  rw [h]
  exact hashRate_shown _ _

theorem units_inj {k k' : Nat} {u : Bytes} (h : (k, u) ∈ hashUnits) (h' : (k', u) ∈ hashUnits) : k = k' := by
  simp only [hashUnits, List.mem_cons, Prod.mk.injEq, List.not_mem_nil, or_false] at h h'
  rcases h with ⟨rfl, rfl⟩ | ⟨rfl, rfl⟩ | ⟨rfl, rfl⟩ | ⟨rfl, rfl⟩ | ⟨rfl, rfl⟩ | ⟨rfl, rfl⟩ | ⟨rfl, rfl⟩ | ⟨rfl, rfl⟩ <;>
    simp at h' <;> exact h'.symm

theorem rnd_one : rnd 1 = 1 := by have := rnd_double (isDouble_pow 0) (by norm_num); simpa using this
theorem rnd_thousand : rnd 1000 = 1000 := by
  have := rnd_double (isDouble_nat (m := 1000) (by norm_num) 0) (by norm_num)
  simpa using this

theorem round_nonneg {q : Rat} (h : 0 ≤ q) : 0 ≤ roundEven (q * 100) := by
  have := (roundEven_range (a := 0) (b := ⌈q * 100⌉) (x := q * 100) (by push_cast; linarith) (Int.le_ceil _)).1
  exact this

theorem toNat_cast {z : Int} (h : 0 ≤ z) : ((z.toNat : Nat) : Rat) = z := by
  exact_mod_cast Int.toNat_of_nonneg h

/-- C66: for every finite float64 that is not negative the output is a well-formed decimal with two places and a unit; the unit is the one whose range
contains the value; the number shown is between 1.00 and 1000.00 (except below 1 kH/s, where it can be smaller, and from 10^24 on, where it can be larger);
and it differs from the exact quotient by at most half a hundredth plus one rounding error of float64 division. -/
theorem C66_display (val : Rat) (hf : IsFloat val) :
    ∃ k unit, (k, unit) ∈ hashUnits ∧ IsHashRate unit (HumanHash (.fin false val)) ∧ shownUnit (HumanHash (.fin false val)) = unit ∧
      (k ≠ 0 → (10 : Rat) ^ k ≤ val) ∧ (k ≠ 21 → val < 10 ^ (k + 3)) ∧
      (k ≠ 0 → 100 ≤ shownHundredths (HumanHash (.fin false val))) ∧ (k ≠ 21 → shownHundredths (HumanHash (.fin false val)) ≤ 100000) ∧
      |val / 10 ^ k - (shownHundredths (HumanHash (.fin false val)) : Rat) / 100| ≤ 1 / 200 + val / 10 ^ k / 2 ^ 53 := by
  have h0 := isFloat_nonneg hf
  obtain ⟨k, unit, hk, hlo, hhi, hs⟩ := humanScale_cases val hf
  obtain ⟨h1, h2, h3⟩ := humanHash_shown hs
  refine ⟨k, unit, hk, h1, h3, hlo, hhi, ?_⟩
  rw [h2]
  have hq : 0 ≤ val / 10 ^ k := by positivity
  generalize hv : (if k = 0 then val else rnd (val / 10 ^ k)) = v
  have hv0 : 0 ≤ v := by rw [← hv]; split_ifs; exact h0; exact rnd_nonneg _
  have hverr : |val / 10 ^ k - v| ≤ val / 10 ^ k / 2 ^ 53 := by
    rw [← hv]; split_ifs with hk0
    · rw [hk0]; simp; positivity
    · exact rnd_rel_err hq
  have hn := round_nonneg hv0
  refine ⟨?_, ?_, ?_⟩
  · intro hk0
    rw [if_neg hk0] at hv
    have h1v : 1 ≤ v := by
      rw [← hv, ← rnd_one]
      apply rnd_mono
      rw [le_div_iff₀ (by positivity), one_mul]; exact hlo hk0
    have := (roundEven_range (a := 100) (b := ⌈v * 100⌉) (x := v * 100) (by push_cast; linarith) (Int.le_ceil _)).1
    omega
  · intro hk21
    have h1v : v ≤ 1000 := by
      have hle : val / 10 ^ k ≤ 1000 := by
        rw [div_le_iff₀ (by positivity)]
        have := hhi hk21
        rw [pow_add] at this
        linarith
      rw [← hv]; split_ifs with hk0
      · rw [hk0] at hle; simpa using hle
      · rw [← rnd_thousand]; exact rnd_mono hle
    have := (roundEven_range (a := 0) (b := 100000) (x := v * 100) (by push_cast; linarith) (by push_cast; linarith)).2
    omega
  · rw [toNat_cast hn]
    have he := roundEven_err (v * 100)
    have he2 : |v - (roundEven (v * 100) : Rat) / 100| ≤ 1 / 200 := by
      have : v - (roundEven (v * 100) : Rat) / 100 = (v * 100 - roundEven (v * 100)) / 100 := by ring
      rw [this, abs_div, abs_of_pos (by norm_num : (0 : Rat) < 100)]
      linarith
    calc |val / 10 ^ k - (roundEven (v * 100) : Rat) / 100| ≤ |val / 10 ^ k - v| + |v - (roundEven (v * 100) : Rat) / 100| := abs_sub_le _ _ _
      _ ≤ _ := by linarith

theorem isFloat_small (n : Nat) (h : n < 2 ^ 53) : IsFloat n := ⟨n, 0, h, by norm_num, by norm_num, by simp⟩

/-- non-vacuity: 13.50 TH/s of the repository's test, and the value just below a unit boundary that is shown as 1000.00 -/
example : (IsFloat 13498344700000 ∧ IsFloat 999999 ∧ IsFloat 0) ∧
    HumanHash (.fin false 13498344700000) = b!"13.50 TH/s" ∧ HumanHash (.fin false 999999) = b!"1000.00 kH/s" ∧ HumanHash (.fin false 0) = b!"0.00 H/s" := by
  refine ⟨⟨isFloat_small 13498344700000 (by norm_num), isFloat_small 999999 (by norm_num), by simpa using isFloat_small 0 (by norm_num)⟩, ?_⟩
  decide +kernel

/-- C66: monotone inside a unit. -/
theorem C66_monotone (v v' : Rat) (hf : IsFloat v) (hf' : IsFloat v') (hle : v ≤ v')
    (hu : shownUnit (HumanHash (.fin false v)) = shownUnit (HumanHash (.fin false v'))) :
    shownHundredths (HumanHash (.fin false v)) ≤ shownHundredths (HumanHash (.fin false v')) := by
  obtain ⟨k, u, hk, _, _, hs⟩ := humanScale_cases v hf
  obtain ⟨k', u', hk', _, _, hs'⟩ := humanScale_cases v' hf'
  obtain ⟨_, h2, h3⟩ := humanHash_shown hs
  obtain ⟨_, h2', h3'⟩ := humanHash_shown hs'
  rw [h3, h3'] at hu
  rw [hu] at hk
  have hkk := units_inj hk hk'
  subst hkk
  rw [h2, h2']
  apply Int.toNat_le_toNat
  apply roundEven_mono
  apply mul_le_mul_of_nonneg_right _ (by norm_num)
  split_ifs
  · exact hle
  · exact rnd_mono (div_le_div_of_nonneg_right hle (by positivity))

/-- non-vacuity -/
example : IsFloat 1500 ∧ IsFloat 2500 ∧ shownUnit (HumanHash (.fin false 1500)) = shownUnit (HumanHash (.fin false 2500)) ∧
    shownHundredths (HumanHash (.fin false 1500)) = 150 ∧ shownHundredths (HumanHash (.fin false 2500)) = 250 :=
  ⟨isFloat_small 1500 (by norm_num), isFloat_small 2500 (by norm_num), by decide +kernel⟩

/-! ## C90: negative values, infinities and NaN -/

/-- C90: the values that are no numbers. -/
theorem C90_special : HumanHash .nan = b!"NaN H/s" ∧ HumanHash (.inf false) = b!"+Inf ZH/s" ∧ HumanHash (.inf true) = b!"-Inf H/s" := by decide +kernel

theorem humanScale_neg (q : Rat) : humanScale (.fin true q) = (.fin true q, b!"H/s") := by
  unfold humanScale
  simp only [Double.ge, Bool.not_true, Bool.false_and, Bool.false_eq_true, if_false]

/-- C90: a negative number of any size (and negative zero) is printed in plain H/s: a minus sign, then the magnitude rounded to hundredths, unscaled. -/
theorem C90_negative (q : Rat) (hq : 0 ≤ q) :
    ∃ s, HumanHash (.fin true q) = 45 :: s ∧ IsHashRate b!"H/s" s ∧ shownUnit s = b!"H/s" ∧ |q - (shownHundredths s : Rat) / 100| ≤ 1 / 200 := by
  obtain ⟨h1, h2, h3⟩ := hashRate_shown (roundEven (q * 100)).toNat b!"H/s"
  refine ⟨fmt2 q ++ [32] ++ b!"H/s", ?_, h1, h3, ?_⟩
  · unfold HumanHash; rw [humanScale_neg]; rfl
  · have he := roundEven_err (q * 100)
    rw [show fmt2 q ++ [32] ++ b!"H/s" = _ from rfl] at *
    have h2 : shownHundredths (fmt2 q ++ [32] ++ b!"H/s") = (roundEven (q * 100)).toNat := h2
    rw [h2, toNat_cast (round_nonneg hq)]
    have : q - (roundEven (q * 100) : Rat) / 100 = (q * 100 - roundEven (q * 100)) / 100 := by ring
    rw [this, abs_div, abs_of_pos (by norm_num : (0 : Rat) < 100)]
    linarith

/-- non-vacuity: minus five million hashes per second is not scaled, and tiny negative values show a negative zero -/
example : HumanHash (.fin true 5000000) = b!"-5000000.00 H/s" ∧ HumanHash (.fin true 0) = b!"-0.00 H/s" ∧ HumanHash (.fin true (1 / 1024)) = b!"-0.00 H/s" := by
  decide +kernel

/-- C90: so the display of the opposite of a number from 1000 on is never the display of the number with a minus sign. -/
theorem C90_sign_violated (q : Rat) (hf : IsFloat q) (h : 1000 ≤ q) : HumanHash (.fin true q) ≠ 45 :: HumanHash (.fin false q) := by
  intro he
  obtain ⟨s, e, _, hu, _⟩ := C90_negative q (isFloat_nonneg hf)
  obtain ⟨k, unit, hk, _, hu', _, hhi, _⟩ := C66_display q hf
  rw [e, List.cons.injEq] at he
  rw [← he.2, hu] at hu'
  have hk0 : k = 0 := units_inj (u := b!"H/s") (by rw [hu']; exact hk) (by simp [hashUnits])
  subst hk0
  have := hhi (by norm_num)
  norm_num at this
  linarith

/-- non-vacuity -/
example : IsFloat 1500 ∧ (1000 : Rat) ≤ 1500 ∧ HumanHash (.fin true 1500) = b!"-1500.00 H/s" ∧ HumanHash (.fin false 1500) = b!"1.50 kH/s" :=
  ⟨isFloat_small 1500 (by norm_num), by norm_num, by decide +kernel⟩

theorem isHashRate_digit {unit s : Bytes} (h : IsHashRate unit s) : ∃ c, s.head? = some c ∧ IsDigit c := by
  obtain ⟨whole, a, b, ⟨h1, h2, _⟩, _, _, rfl⟩ := h
  rcases whole with _ | ⟨c, w⟩
  · exact absurd rfl h1
  · exact ⟨c, rfl, h2 c (by simp)⟩

/-- C90: the output is a well-formed hash rate exactly for the finite float64 numbers whose sign is positive. -/
theorem C90_wellformed (v : Double) (hv : ∀ neg q, v = .fin neg q → IsFloat q) :
    (∃ unit, IsHashRate unit (HumanHash v)) ↔ ∃ q, v = .fin false q := by
  constructor
  · rintro ⟨unit, h⟩
    obtain ⟨c, hc, hd⟩ := isHashRate_digit h
    rcases v with _ | ⟨_ | _⟩ | ⟨_ | _, q⟩
    · rw [C90_special.1] at hc; cases hc; exact absurd hd (by unfold IsDigit; decide)
    · rw [C90_special.2.1] at hc; cases hc; exact absurd hd (by unfold IsDigit; decide)
    · rw [C90_special.2.2] at hc; cases hc; exact absurd hd (by unfold IsDigit; decide)
    · exact ⟨q, rfl⟩
    · obtain ⟨s, e, _⟩ := C90_negative q (isFloat_nonneg (hv _ _ rfl))
      rw [e] at hc; cases hc; exact absurd hd (by unfold IsDigit; decide)
  · rintro ⟨q, rfl⟩
    obtain ⟨_, unit, _, h, _⟩ := C66_display q (hv _ _ rfl)
    exact ⟨unit, h⟩

/-- non-vacuity: a float64 that is not a number, and one that is -/
example : (∀ neg q, Double.nan = .fin neg q → IsFloat q) ∧ (∀ neg q, Double.fin false 1500 = .fin neg q → IsFloat q) := by
  refine ⟨fun _ _ h => (by cases h), ?_⟩
  intro _ _ h
  cases h
  exact isFloat_small 1500 (by norm_num)

end Verif.Props
