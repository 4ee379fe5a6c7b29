import Verif.Lemmas.Base58
import Verif.Spec.Typo
import Mathlib.Tactic.IntervalCases
/-!
# What a typo does to the value of a base58 text
-/
namespace Verif
open Spec

theorem index58_lt {c : UInt8} {d : Nat} (h : index58 c = some d) : d < 58 := (index58_some c d h).1

theorem index58_inj {c c' : UInt8} {d : Nat} (h : index58 c = some d) (h' : index58 c' = some d) : c = c' :=
  (index58_some c d h).2.symm.trans (index58_some c' d h').2

/-- A text has a value from any start if it has one from some start. -/
theorem value58_start : ∀ (post : Bytes) (acc v : Nat), value58 acc post = some v → ∃ w, w < 58 ^ post.length ∧ ∀ acc', value58 acc' post = some (acc' * 58 ^ post.length + w)
  | [], acc, v, h => ⟨0, by simp, by intro a; simp [value58]⟩
  | c :: post, acc, v, h => by
    unfold value58 at h
    cases hc : index58 c with
    | none => rw [hc] at h; exact absurd h (by simp)
    | some d =>
      rw [hc] at h
      obtain ⟨w, hw, hall⟩ := value58_start post _ v h
      have hd := index58_lt hc
      refine ⟨d * 58 ^ post.length + w, ?_, ?_⟩
      · rw [List.length_cons, pow_succ]
        have : (d + 1) * 58 ^ post.length ≤ 58 * 58 ^ post.length := Nat.mul_le_mul_right _ hd
        rw [Nat.add_mul] at this
        omega
      · intro acc'
        unfold value58
        rw [hc]
        show value58 (acc' * 58 + d) post = _
        rw [hall, List.length_cons, pow_succ]
        congr 1
        ring

theorem value58_lt {s : Bytes} {v : Nat} (h : value58 0 s = some v) : v < 58 ^ s.length := by
  obtain ⟨w, hw, hall⟩ := value58_start s 0 v h
  have := hall 0
  rw [h] at this
  simp at this
  omega

/-- The value of a text around one character. -/
theorem value58_around {pre post : Bytes} {c : UInt8} {v : Nat} (h : value58 0 (pre ++ c :: post) = some v) :
    ∃ p d w, index58 c = some d ∧ w < 58 ^ post.length ∧ v = (p * 58 + d) * 58 ^ post.length + w ∧
      ∀ c' d', index58 c' = some d' → value58 0 (pre ++ c' :: post) = some ((p * 58 + d') * 58 ^ post.length + w) := by
  rw [value58_append] at h
  cases hp : value58 0 pre with
  | none => rw [hp] at h; exact absurd h (by simp)
  | some p =>
    rw [hp] at h
    simp only [Option.bind_some] at h
    unfold value58 at h
    cases hc : index58 c with
    | none => rw [hc] at h; exact absurd h (by simp)
    | some d =>
      rw [hc] at h
      obtain ⟨w, hw, hall⟩ := value58_start post _ v h
      refine ⟨p, d, w, rfl, hw, ?_, ?_⟩
      · have := hall (p * 58 + d)
        rw [show value58 (p * 58 + d) post = some v from h] at this
        exact Option.some.inj this
      · intro c' d' hc'
        rw [value58_append, hp]
        simp only [Option.bind_some]
        unfold value58
        rw [hc']
        exact hall _

/-- Replacing a character changes the value by a nonzero number of times the weight of its place. -/
theorem value58_replaced {a s : Bytes} {k : Nat} (h : Replaced a s k) {v v' : Nat} (hv : value58 0 a = some v) (hv' : value58 0 s = some v') :
    ∃ e, 0 < e ∧ e < 58 ∧ (v' = v + e * 58 ^ k ∨ v = v' + e * 58 ^ k) := by
  obtain ⟨pre, c, c', post, rfl, rfl, hne, rfl⟩ := h
  obtain ⟨p, d, w, hd, hw, rfl, hall⟩ := value58_around hv
  obtain ⟨p', d', w', hd', -, -, -⟩ := value58_around hv'
  have h2 := hall c' d' hd'
  rw [hv'] at h2
  have h2 := Option.some.inj h2
  have l1 := index58_lt hd
  have l2 := index58_lt hd'
  have hdd : d ≠ d' := by rintro rfl; exact hne (index58_inj hd hd')
  subst h2
  rcases Nat.lt_or_ge d d' with hlt | hge
  · refine ⟨d' - d, by omega, by omega, Or.inl ?_⟩
    obtain ⟨e, rfl⟩ := Nat.exists_eq_add_of_le (Nat.le_of_lt hlt)
    rw [Nat.add_sub_cancel_left]
    ring
  · refine ⟨d - d', by omega, by omega, Or.inr ?_⟩
    obtain ⟨e, rfl⟩ := Nat.exists_eq_add_of_le hge
    rw [Nat.add_sub_cancel_left]
    ring

/-- Exchanging two neighbours changes the value by a nonzero number of times 57 times the weight of the second place. -/
theorem value58_swapped {a s : Bytes} {k : Nat} (h : Swapped a s k) {v v' : Nat} (hv : value58 0 a = some v) (hv' : value58 0 s = some v') :
    ∃ e, 0 < e ∧ e < 58 ∧ (v' = v + e * 57 * 58 ^ k ∨ v = v' + e * 57 * 58 ^ k) := by
  obtain ⟨pre, c, d, post, rfl, rfl, hne, rfl⟩ := h
  have hv2 : value58 0 ((pre ++ [c]) ++ d :: post) = some v := by simpa using hv
  obtain ⟨p2, y, w2, hy, -, -, hall2⟩ := value58_around hv2
  obtain ⟨p, x, w, hx, hw, rfl, hall⟩ := value58_around hv
  have h1 := hall d y hy
  have h1' : value58 0 ((pre ++ [d]) ++ d :: post) = some ((p * 58 + y) * 58 ^ (d :: post).length + w) := by simpa using h1
  obtain ⟨p3, y3, w3, hy3, hw3, e3, hall3⟩ := value58_around h1'
  have h4 := hall3 c x hx
  have h4' : value58 0 (pre ++ d :: c :: post) = some ((p3 * 58 + x) * 58 ^ post.length + w3) := by simpa using h4
  rw [hv'] at h4'
  have h4' := Option.some.inj h4'
  rw [hy] at hy3
  obtain rfl := Option.some.inj hy3
  have l1 := index58_lt hx
  have l2 := index58_lt hy
  have hdd : x ≠ y := by rintro rfl; exact hne (index58_inj hx hy)
  subst h4'
  rw [List.length_cons, pow_succ] at *
  rcases Nat.lt_or_ge x y with hlt | hge
  · refine ⟨y - x, by omega, by omega, Or.inl ?_⟩
    obtain ⟨e, rfl⟩ := Nat.exists_eq_add_of_le (Nat.le_of_lt hlt)
    rw [Nat.add_sub_cancel_left]
    generalize 58 ^ post.length = P at *
    nlinarith
  · refine ⟨x - y, by omega, by omega, Or.inr ?_⟩
    obtain ⟨e, rfl⟩ := Nat.exists_eq_add_of_le hge
    rw [Nat.add_sub_cancel_left]
    generalize 58 ^ post.length = P at *
    nlinarith

/-- No typo turns the version byte 0 into 111 or back and leaves the next 20 bytes as they are. -/
theorem typo_version : (∀ k : Fin 64, ∀ e : Fin 58, e.val * 58 ^ k.val ≤ 111 * 2 ^ 192 - 2 ^ 32 ∨ 111 * 2 ^ 192 + 2 ^ 32 ≤ e.val * 58 ^ k.val) ∧
    ∀ k : Fin 64, ∀ e : Fin 58, e.val * 57 * 58 ^ k.val ≤ 111 * 2 ^ 192 - 2 ^ 32 ∨ 111 * 2 ^ 192 + 2 ^ 32 ≤ e.val * 57 * 58 ^ k.val := by
  constructor <;> decide +kernel

theorem typo_version_big (k e m : Nat) (hm : m = 1 ∨ m = 57) (he : 0 < e ∧ e < 58) : e * m * 58 ^ k ≤ 111 * 2 ^ 192 - 2 ^ 32 ∨ 111 * 2 ^ 192 + 2 ^ 32 ≤ e * m * 58 ^ k := by
  rcases Nat.lt_or_ge k 64 with hk | hk
  · rcases hm with rfl | rfl
    · have := typo_version.1 ⟨k, hk⟩ ⟨e, he.2⟩
      simpa using this
    · have := typo_version.2 ⟨k, hk⟩ ⟨e, he.2⟩
      simpa using this
  · right
    have h1 : 58 ^ 64 ≤ 58 ^ k := Nat.pow_le_pow_right (by norm_num) hk
    have h2 : 1 ≤ e * m := Nat.mul_pos he.1 (by rcases hm with rfl | rfl <;> norm_num)
    calc 111 * 2 ^ 192 + 2 ^ 32 ≤ 58 ^ 64 := by norm_num
      _ ≤ 58 ^ k := h1
      _ ≤ e * m * 58 ^ k := Nat.le_mul_of_pos_left _ h2

end Verif
