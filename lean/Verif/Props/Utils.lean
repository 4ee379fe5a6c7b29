import Verif.Lemmas.VarInt
import Mathlib.Data.List.Sort
import Mathlib.Data.List.Induction
/-!
# C01–C06: utils

Non-vacuity: the theorems without hypotheses range over every input; examples show concrete non-trivial instances.
-/
namespace Verif.Props
open Verif

/-! ## C01 -/

/-- C01: decoding an encoded integer followed by anything returns the integer and the size of its encoding. -/
theorem C01_varint_roundtrip (i : UInt64) (tail spare : Bytes) :
    DecodeVarInt ⟨VarInt i ++ tail, spare⟩ = .ok (i, (VarInt i).length) :=
  decodeVarInt_VarInt i tail spare

example : DecodeVarInt ⟨VarInt 70000 ++ [1, 2], [9]⟩ = .ok (70000, 5) := by decide +kernel

/-! ## C02 -/

/-- C02 (a): the four size classes. -/
theorem C02_varint_length (i : UInt64) : (VarInt i).length =
    if i.toNat < 0xfd then 1 else if i.toNat < 2 ^ 16 then 3 else if i.toNat < 2 ^ 32 then 5 else 9 :=
  VarInt_length i

/-- C02 (b): nothing that decodes to `i` is shorter than `VarInt(i)`. -/
theorem C02_varint_shortest (b : Slice) (i : UInt64) (n : Nat) (h : DecodeVarInt b = .ok (i, n)) : (VarInt i).length ≤ n := by
  obtain ⟨_ | ⟨b0, d⟩, sp⟩ := b
  · simp [decodeVarInt_nil] at h
  · rw [decodeVarInt_cons] at h
    split at h
    · simp at h
    · rename_i hl
      simp only [Res.ok.injEq, Prod.mk.injEq] at h
      obtain ⟨h1, rfl⟩ := h
      rw [VarInt_length]
      have hlt := leNat_lt ((d ++ sp).take (announced b0 - 1))
      have hlen : ((d ++ sp).take (announced b0 - 1)).length = announced b0 - 1 := by rw [List.length_take]; omega
      rw [hlen] at hlt
      have hv := congrArg UInt64.toNat h1
      unfold announced at *
      have hb := b0.toNat_lt
      by_cases c9 : b0 = 0xff
      · simp only [if_pos c9] at *; split <;> (try split) <;> (try split) <;> omega
      · simp only [if_neg c9] at *
        by_cases c5 : b0 = 0xfe
        · simp only [if_pos c5] at *
          simp at hv hlt
          rw [Nat.mod_eq_of_lt (by omega)] at hv
          split <;> (try split) <;> (try split) <;> omega
        · simp only [if_neg c5] at *
          by_cases c3 : b0 = 0xfd
          · simp only [if_pos c3] at *
            simp at hv hlt
            rw [Nat.mod_eq_of_lt (by omega)] at hv
            split <;> (try split) <;> (try split) <;> omega
          · simp only [if_neg c3] at *
            simp at hv
            have n1 : b0.toNat ≠ 255 := fun h => c9 (UInt8.toNat_inj.mp h)
            have n2 : b0.toNat ≠ 254 := fun h => c5 (UInt8.toNat_inj.mp h)
            have n3 : b0.toNat ≠ 253 := fun h => c3 (UInt8.toNat_inj.mp h)
            rw [if_pos (by omega)]

example : DecodeVarInt ⟨[0xfd, 0x05, 0x00], []⟩ = .ok (5, 3) ∧ (VarInt 5).length = 1 := by decide +kernel

/-- C02 (c): no encoding is a prefix of another. -/
theorem C02_varint_prefix_free (i j : UInt64) (s t : Bytes) (h : VarInt i ++ s = VarInt j ++ t) : i = j ∧ s = t :=
  VarInt_prefix_free h

example : VarInt 300 ++ [7] = [0xfd, 0x2c, 0x01, 7] := by decide +kernel

/-! ## C03 -/

/-- Specification: the total size announced by the first byte. -/
def varIntSize (first : UInt8) : Nat := if first = 0xff then 9 else if first = 0xfe then 5 else if first = 0xfd then 3 else 1

/-- C03 (a): `DecodeVarInt` panics exactly on the empty slice and when the *capacity* is below the announced size. -/
theorem C03_varint_panic_iff (b : Slice) :
    DecodeVarInt b = .panic ↔ b.data = [] ∨ ∃ first, b.data.head? = some first ∧ b.data.length + b.spare.length < varIntSize first := by
  obtain ⟨_ | ⟨b0, d⟩, sp⟩ := b
  · simp [decodeVarInt_nil]
  · rw [decodeVarInt_cons]
    have : announced b0 = varIntSize b0 := rfl
    rw [this]
    simp only [List.length_append, reduceCtorEq, List.head?_cons, Option.some.injEq, List.length_cons, false_or, exists_eq_left']
    constructor
    · intro h; split at h
      · omega
      · simp at h
    · intro h; rw [if_pos (by omega)]

/-- C03 (b): it never reports an error, and on success the size is the announced one: 1, 3, 5 or 9. -/
theorem C03_varint_size (b : Slice) :
    (∀ m, DecodeVarInt b ≠ .err m) ∧
    (∀ i n, DecodeVarInt b = .ok (i, n) → ∃ first, b.data.head? = some first ∧ n = varIntSize first ∧ (n = 1 ∨ n = 3 ∨ n = 5 ∨ n = 9)) := by
  obtain ⟨_ | ⟨b0, d⟩, sp⟩ := b
  · simp [decodeVarInt_nil]
  · rw [decodeVarInt_cons]
    refine ⟨by intro m; split <;> simp, ?_⟩
    intro i n h
    split at h
    · simp at h
    · simp only [Res.ok.injEq, Prod.mk.injEq] at h
      exact ⟨b0, rfl, h.2.symm, h.2 ▸ announced_cases b0⟩

/-- C03 (c): when the visible bytes cover the announced size, the result is determined by these bytes alone: any other slice beginning
with them, whatever follows in its length or capacity, decodes to the same result. -/
theorem C03_varint_local (first : UInt8) (body rest spare rest' spare' : Bytes) (h : body.length + 1 = varIntSize first) :
    DecodeVarInt ⟨first :: (body ++ rest), spare⟩ = DecodeVarInt ⟨first :: (body ++ rest'), spare'⟩ ∧
    (DecodeVarInt ⟨first :: (body ++ rest), spare⟩).isOk := by
  have hb : body.length + 1 = announced first := h
  have e : ∀ r s : Bytes, DecodeVarInt ⟨first :: (body ++ r), s⟩ =
      .ok (if announced first = 1 then first.toUInt64 else UInt64.ofNat (leNat body), announced first) := by
    intro r s
    rw [decodeVarInt_cons, if_neg (by simp; omega), List.append_assoc, List.take_append_of_le_length (by omega),
      List.take_of_length_le (by omega)]
  rw [e, e]
  exact ⟨rfl, rfl⟩

/-- C03 (d): the value is the first byte if that is below 0xfd, and otherwise the bytes that follow it, up to the announced size, read as a little-endian number (they may lie beyond the
length, in the capacity). -/
theorem C03_varint_value (b : Slice) (i : UInt64) (n : Nat) (h : DecodeVarInt b = .ok (i, n)) :
    ∃ first, b.data.head? = some first ∧ i.toNat = if first.toNat < 0xfd then first.toNat else leNat (((b.data ++ b.spare).drop 1).take (varIntSize first - 1)) := by
  obtain ⟨_ | ⟨b0, d⟩, sp⟩ := b
  · simp [decodeVarInt_nil] at h
  · rw [decodeVarInt_cons] at h
    refine ⟨b0, rfl, ?_⟩
    have hs : announced b0 = varIntSize b0 := rfl
    split at h
    · simp at h
    · rename_i hl
      simp only [Res.ok.injEq, Prod.mk.injEq] at h
      obtain ⟨rfl, _⟩ := h
      have e : ((b0 :: d ++ sp).drop 1) = d ++ sp := by simp
      rw [e, ← hs]
      by_cases h1 : announced b0 = 1
      · rw [if_pos h1]
        have : b0.toNat < 0xfd := by
          unfold announced at h1
          split_ifs at h1 with c1 c2 c3
          · omega
          · omega
          · omega
          have n1 : b0.toNat ≠ 255 := fun h => c1 (UInt8.toNat_inj.mp h)
          have n2 : b0.toNat ≠ 254 := fun h => c2 (UInt8.toNat_inj.mp h)
          have n3 : b0.toNat ≠ 253 := fun h => c3 (UInt8.toNat_inj.mp h)
          have := b0.toNat_lt
          omega
        rw [if_pos this]; rfl
      · rw [if_neg h1]
        have : ¬ b0.toNat < 0xfd := by
          intro hc
          apply h1
          unfold announced
          rw [if_neg (by rintro rfl; simp at hc), if_neg (by rintro rfl; simp at hc), if_neg (by rintro rfl; simp at hc)]
        rw [if_neg this, UInt64.toNat_ofNat', Nat.mod_eq_of_lt]
        refine lt_of_lt_of_le (leNat_lt _) ?_
        rw [show (2 : Nat) ^ 64 = 256 ^ 8 by norm_num]
        apply Nat.pow_le_pow_right (by decide)
        rw [List.length_take]
        have := announced_cases b0
        omega

example : DecodeVarInt ⟨[0xfd, 0x2c], [1, 9]⟩ = .ok (300, 3) := by decide +kernel

example : DecodeVarInt ⟨[0xfd, 1], [0]⟩ = .ok (1, 3) ∧ DecodeVarInt ⟨[0xfd, 1], []⟩ = .panic := by decide +kernel

/-! ## C04 -/

/-- C04 (a): `ReverseBytes` is list reversal. (The model works on a copy; the argument is immutable.) -/
theorem C04_reverseBytes (a : Bytes) : ReverseBytes a = a.reverse := ReverseBytes_eq a

/-- C04 (b): it is its own inverse. -/
theorem C04_reverseBytes_involutive (a : Bytes) : ReverseBytes (ReverseBytes a) = a := by simp

theorem reverseHexLoop_append (n : Nat) : ∀ (s t : Bytes), s.length = 2 * n →
    reverseHexLoop (s ++ t) s.length = reverseHexLoop s s.length := by
  induction n with
  | zero => intro s t h; have h0 : s = [] := List.length_eq_zero_iff.mp (by omega)
            rw [h0]; rfl
  | succ n ih =>
    intro s t h
    -- split off the last two characters
    obtain ⟨u, a, b, rfl⟩ : ∃ u a b, s = u ++ [a, b] := by
      rcases List.eq_nil_or_concat s with rfl | ⟨s1, b, rfl⟩
      · simp at h
      · rcases List.eq_nil_or_concat s1 with rfl | ⟨s2, a, rfl⟩
        · simp at h; omega
        · exact ⟨s2, a, b, by simp⟩
    have hu : u.length = 2 * n := by simp at h; omega
    have hl : (u ++ [a, b]).length = u.length + 2 := by simp
    rw [hl]
    simp only [reverseHexLoop]
    have e1 : ((u ++ [a, b] ++ t).take (u.length + 2)).drop u.length = [a, b] := by
      rw [show u.length + 2 = (u ++ [a, b]).length by simp, List.take_left]; simp
    have e2 : ((u ++ [a, b]).take (u.length + 2)).drop u.length = [a, b] := by
      rw [show u.length + 2 = (u ++ [a, b]).length by simp, List.take_length]; simp
    rw [e1, e2, List.append_assoc u, ih u _ hu, ih u _ hu]

/-- C04 (c): on the hex encoding of `b` the result is the hex encoding of the reversed bytes. -/
theorem C04_reverseHex_encode (b : Bytes) : ReverseHexString (hexEncode b) = hexEncode (ReverseBytes b) := by
  have hev : (hexEncode b).length % 2 = 0 := by rw [hexEncode_length]; omega
  unfold ReverseHexString
  simp only [hev, ne_eq, not_true_eq_false, if_false, ReverseBytes_eq]
  induction b using List.reverseRecOn with
  | nil => rfl
  | append_singleton bs x ih =>
    have hx : hexEncode [x] = [hexChar (x >>> 4), hexChar (x &&& 15)] := rfl
    rw [hexEncode_append, hx]
    have hl : (hexEncode bs ++ [hexChar (x >>> 4), hexChar (x &&& 15)]).length = (hexEncode bs).length + 2 := by simp
    rw [hl]
    simp only [reverseHexLoop]
    rw [reverseHexLoop_append bs.length (hexEncode bs) _ (by simp)]
    rw [ih (by rw [hexEncode_length]; omega)]
    have e1 : ((hexEncode bs ++ [hexChar (x >>> 4), hexChar (x &&& 15)]).take ((hexEncode bs).length + 2)).drop (hexEncode bs).length
        = [hexChar (x >>> 4), hexChar (x &&& 15)] := by
      rw [show (hexEncode bs).length + 2 = (hexEncode bs ++ [hexChar (x >>> 4), hexChar (x &&& 15)]).length by simp, List.take_length]; simp
    rw [e1]
    simp [hexEncode]

/-- The pairs of characters of an even-length string. -/
def pairs : Bytes → List (UInt8 × UInt8)
  | a :: b :: rest => (a, b) :: pairs rest
  | _ => []

theorem pairs_flat (s : Bytes) (h : s.length % 2 = 0) : (pairs s).flatMap (fun p => [p.1, p.2]) = s := by
  induction s using pairs.induct with
  | case1 a b rest ih => simp [pairs]; exact ih (by simp at h; omega)
  | case2 s hs =>
    match s, hs, h with
    | [], _, _ => rfl
    | [a], _, h => simp at h
    | a :: b :: r, hs, _ => exact absurd rfl (hs a b r)

theorem reverseHexLoop_pairs (ps : List (UInt8 × UInt8)) :
    reverseHexLoop (ps.flatMap fun p => [p.1, p.2]) (ps.flatMap fun p => [p.1, p.2]).length = ps.reverse.flatMap fun p => [p.1, p.2] := by
  induction ps using List.reverseRecOn with
  | nil => rfl
  | append_singleton ps p ih =>
    have hlen : ∀ l : List (UInt8 × UInt8), (l.flatMap fun p => [p.1, p.2]).length = 2 * l.length := by
      intro l; induction l with
      | nil => rfl
      | cons a l ih => simp [ih]; omega
    generalize hu : (ps.flatMap fun p => [p.1, p.2]) = u at *
    have hul : u.length = 2 * ps.length := by rw [← hu]; exact hlen ps
    simp only [List.flatMap_append, hu, List.flatMap_cons, List.flatMap_nil, List.append_nil, List.reverse_append, List.reverse_cons,
      List.reverse_nil, List.nil_append, List.singleton_append]
    rw [show (u ++ [p.1, p.2]).length = u.length + 2 by simp]
    simp only [reverseHexLoop]
    rw [reverseHexLoop_append ps.length u _ hul, ih]
    have e1 : ((u ++ [p.1, p.2]).take (u.length + 2)).drop u.length = [p.1, p.2] := by
      rw [show u.length + 2 = (u ++ [p.1, p.2]).length by simp, List.take_length]; simp
    rw [e1]

/-- C04 (d): on any even-length string (hex or not) the result lists its two-character groups in reverse order. -/
theorem C04_reverseHex_groups (s : Bytes) (h : s.length % 2 = 0) :
    ReverseHexString s = (pairs s).reverse.flatMap fun p => [p.1, p.2] := by
  unfold ReverseHexString
  simp only [h, ne_eq, not_true_eq_false, if_false]
  conv_lhs => rw [← pairs_flat s h]
  exact reverseHexLoop_pairs _

theorem pairs_flatMap (ps : List (UInt8 × UInt8)) : pairs (ps.flatMap fun p => [p.1, p.2]) = ps := by
  induction ps with
  | nil => rfl
  | cons p ps ih => simp [pairs, ih]

/-- C04 (e): on even-length strings it is its own inverse. -/
theorem C04_reverseHex_involutive (s : Bytes) (h : s.length % 2 = 0) : ReverseHexString (ReverseHexString s) = s := by
  have hl : (ReverseHexString s).length % 2 = 0 := by
    rw [C04_reverseHex_groups s h]
    have hlen : ∀ l : List (UInt8 × UInt8), (l.flatMap fun p => [p.1, p.2]).length = 2 * l.length := by
      intro l; induction l with
      | nil => rfl
      | cons a l ih => simp [ih]; omega
    rw [hlen]; omega
  rw [C04_reverseHex_groups _ hl, C04_reverseHex_groups s h, pairs_flatMap, List.reverse_reverse, pairs_flat s h]

/-- C04 (f): an odd-length string is treated as if it had a leading '0'. -/
theorem C04_reverseHex_odd (s : Bytes) (h : s.length % 2 = 1) : ReverseHexString s = ReverseHexString (48 :: s) := by
  unfold ReverseHexString
  have h2 : (48 :: s).length % 2 = 0 := by simp; omega
  rw [if_pos (by omega), if_neg (by omega)]

example : ReverseHexString b!"0a0b0c" = b!"0c0b0a" ∧ ReverseHexString b!"abc" = b!"bc0a" := by decide +kernel

/-! ## C05 -/

/-- C05 (a): `Equals` decides equality. -/
theorem C05_equals_iff (a b : Bytes) : Equals a b = true ↔ a = b := by
  unfold Equals
  by_cases hl : a.length = b.length
  · simp only [hl, ne_eq, not_true_eq_false, if_false]
    induction a generalizing b with
    | nil => cases b <;> simp_all [equalsLoop]
    | cons x xs ih =>
      cases b with
      | nil => simp at hl
      | cons y ys =>
        simp only [equalsLoop]
        by_cases hxy : x = y
        · simp [hxy, ih ys (by simpa using hl)]
        · simp [hxy]
  · simp only [ne_eq, hl, not_false_eq_true, if_true, Bool.false_eq_true, false_iff]
    intro h; exact hl (by rw [h])

/-- Specification: non-decreasing lexicographic order of byte strings (`bytes.Compare(a,b) <= 0`). -/
def lexLe : Bytes → Bytes → Prop
  | [], _ => True
  | _ :: _, [] => False
  | a :: as, b :: bs => a < b ∨ (a = b ∧ lexLe as bs)

theorem lexLe_total (a b : Bytes) : lexLe a b ∨ lexLe b a := by
  induction a generalizing b with
  | nil => exact Or.inl trivial
  | cons x xs ih => cases b with
    | nil => exact Or.inr trivial
    | cons y ys =>
      simp only [lexLe]
      rcases lt_trichotomy x.toNat y.toNat with h | h | h
      · exact Or.inl (Or.inl (UInt8.lt_iff_toNat_lt.mpr h))
      · have := UInt8.toNat_inj.mp h
        subst this
        rcases ih ys with h | h
        · exact Or.inl (Or.inr ⟨rfl, h⟩)
        · exact Or.inr (Or.inr ⟨rfl, h⟩)
      · exact Or.inr (Or.inl (UInt8.lt_iff_toNat_lt.mpr h))

theorem lexLe_antisymm {a b : Bytes} (h1 : lexLe a b) (h2 : lexLe b a) : a = b := by
  induction a generalizing b with
  | nil => cases b with
    | nil => rfl
    | cons => exact absurd h2 (by simp [lexLe])
  | cons x xs ih => cases b with
    | nil => exact absurd h1 (by simp [lexLe])
    | cons y ys =>
      simp only [lexLe, UInt8.lt_iff_toNat_lt] at h1 h2
      rcases h1 with h1 | ⟨rfl, h1⟩ <;> rcases h2 with h2 | ⟨h, h2⟩
      · omega
      · subst h; omega
      · omega
      · rw [ih h1 h2]

theorem lexLe_trans {a b c : Bytes} (h1 : lexLe a b) (h2 : lexLe b c) : lexLe a c := by
  induction a generalizing b c with
  | nil => trivial
  | cons x xs ih => cases b with
    | nil => exact absurd h1 (by simp [lexLe])
    | cons y ys => cases c with
      | nil => exact absurd h2 (by simp [lexLe])
      | cons z zs =>
        simp only [lexLe, UInt8.lt_iff_toNat_lt] at *
        rcases h1 with h1 | ⟨rfl, h1⟩ <;> rcases h2 with h2 | ⟨rfl, h2⟩
        · left; omega
        · left; omega
        · left; omega
        · right; exact ⟨rfl, ih h1 h2⟩

theorem lessBytes_false_iff (a b : Bytes) : lessBytes a b = false ↔ lexLe b a := by
  unfold lessBytes
  induction a generalizing b with
  | nil => cases b <;> simp [bytesCompare, lexLe]
  | cons x xs ih => cases b with
    | nil => simp [bytesCompare, lexLe]
    | cons y ys =>
      have ih := ih ys
      simp only [beq_eq_false_iff_ne, ne_eq] at ih
      simp only [bytesCompare, lexLe, UInt8.lt_iff_toNat_lt]
      split
      · rename_i h
        have : ¬ (y.toNat < x.toNat ∨ y = x ∧ lexLe ys xs) := by
          rintro (h' | ⟨rfl, _⟩) <;> omega
        simp [this]
      · split
        · rename_i h1 h2; simp [h2]
        · rename_i h1 h2
          have : y = x := UInt8.toNat_inj.mp (by omega)
          subst this
          simp [ih]

theorem insertSorted_perm (x : Bytes) (l : List Bytes) : (insertSorted x l).Perm (x :: l) := by
  induction l with
  | nil => exact List.Perm.refl _
  | cons y ys ih =>
    simp only [insertSorted]
    split
    · exact (List.Perm.cons y ih).trans (List.Perm.swap x y ys)
    · exact List.Perm.refl _

theorem insertSorted_sorted (x : Bytes) (l : List Bytes) (h : l.Pairwise lexLe) : (insertSorted x l).Pairwise lexLe := by
  induction l with
  | nil => simp [insertSorted]
  | cons y ys ih =>
    simp only [insertSorted]
    rw [List.pairwise_cons] at h
    split
    · rename_i hlt
      rw [List.pairwise_cons]
      refine ⟨?_, ih h.2⟩
      intro z hz
      have hz := (insertSorted_perm x ys).mem_iff.mp hz
      rcases List.mem_cons.mp hz with rfl | hz
      · rcases lexLe_total y z with h' | h'
        · exact h'
        · have := (lessBytes_false_iff y z).mpr h'; simp [this] at hlt
      · exact h.1 z hz
    · rename_i hlt
      have hxy : lexLe x y := (lessBytes_false_iff y x).mp (by simpa using hlt)
      rw [List.pairwise_cons]
      refine ⟨?_, List.pairwise_cons.mpr h⟩
      intro z hz
      rcases List.mem_cons.mp hz with rfl | hz
      · exact hxy
      · exact lexLe_trans hxy (h.1 z hz)

/-- C05 (b): the result of `SortByteArrays` is a permutation of its argument. -/
theorem C05_sort_perm (l : List Bytes) : (SortByteArrays l).Perm l := by
  induction l with
  | nil => exact List.Perm.refl _
  | cons x xs ih => exact (insertSorted_perm x _).trans (List.Perm.cons x ih)

/-- C05 (c): ... in non-decreasing lexicographic order. -/
theorem C05_sort_sorted (l : List Bytes) : (SortByteArrays l).Pairwise lexLe := by
  induction l with
  | nil => exact List.Pairwise.nil
  | cons x xs ih => exact insertSorted_sorted x _ ih

/-- Any sorted permutation is *the* sorted permutation, so the result does not depend on the sorting algorithm. -/
theorem sorted_perm_unique {l m : List Bytes} (hp : l.Perm m) (hl : l.Pairwise lexLe) (hm : m.Pairwise lexLe) : l = m :=
  List.Perm.eq_of_pairwise (fun _ _ _ _ h1 h2 => lexLe_antisymm h1 h2) hl hm hp

/-- C05 (d): ... and it is the same for every ordering of the same multiset (and equals every sorted permutation of the argument). -/
theorem C05_sort_canonical (l m : List Bytes) (h : l.Perm m) :
    SortByteArrays l = SortByteArrays m ∧ (m.Pairwise lexLe → SortByteArrays l = m) := by
  constructor
  · exact sorted_perm_unique ((C05_sort_perm l).trans (h.trans (C05_sort_perm m).symm)) (C05_sort_sorted l) (C05_sort_sorted m)
  · intro hm; exact sorted_perm_unique ((C05_sort_perm l).trans h) (C05_sort_sorted l) hm

example : SortByteArrays [[3, 1], [3], [], [2, 9]] = [[], [2, 9], [3], [3, 1]] := by decide +kernel

/-! ## C06 -/

/-- C06 (a): `l` bytes with little-endian value `v`, or a panic for `l < 4`. -/
theorem C06_littleEndian (v l : UInt32) :
    (l.toNat < 4 → GetLittleEndianBytes v l = .panic) ∧
    (4 ≤ l.toNat → ∃ b, GetLittleEndianBytes v l = .ok b ∧ b.length = l.toNat ∧ leNat b = v.toNat) := by
  constructor
  · intro h; simp [GetLittleEndianBytes, h]
  · intro h
    refine ⟨_, by rw [GetLittleEndianBytes, if_neg (by omega)], by simp; omega, ?_⟩
    have happ : ∀ (a : Bytes) (n : Nat), leNat (a ++ List.replicate n 0) = leNat a := by
      intro a n
      induction a with
      | nil =>
        induction n with
        | zero => rfl
        | succ n ih => simpa [List.replicate_succ, leNat] using ih
      | cons x xs ih => simp [leNat, ih]
    rw [happ, leNat_putUint32]

example : GetLittleEndianBytes 0x12345678 5 = .ok [0x78, 0x56, 0x34, 0x12, 0] := by decide +kernel

/-- C06 (b), every outcome of `Decode32Byte`; `extra` are the bytes that the allocator adds behind the string's copy. An invalid hex string is an error. A valid one is
decoded in place; if the string and the extra bytes together hold 32 bytes, the result is the first 32 bytes of: the decoded bytes, the
characters of the string they have not overwritten, the extra bytes; otherwise the call panics. -/
theorem C06_decode32 (extra s : Bytes) :
    (¬ IsHex s → (Decode32Byte extra s).isErr) ∧
    (IsHex s → 32 ≤ s.length + extra.length → Decode32Byte extra s = .ok ((hexDecodeIgnore s ++ s.drop (s.length / 2) ++ extra).take 32)) ∧
    (IsHex s → s.length + extra.length < 32 → Decode32Byte extra s = .panic) := by
  have hd : IsHex s → hexDecodeSlice extra s = .ok ⟨hexDecodeIgnore s, s.drop (hexDecodeIgnore s).length ++ extra⟩ := by
    intro h
    have := hexDecode_isHex h
    unfold hexDecodeSlice hexDecodeIgnore
    rcases hx : hexDecode s with ⟨x, _ | e⟩ <;> simp [hx] at this ⊢
  refine ⟨?_, ?_, ?_⟩
  · intro h
    unfold Decode32Byte hexDecodeSlice
    rcases hx : hexDecode s with ⟨x, _ | e⟩
    · exact absurd (hexDecode_ok (by rw [hx])).2 h
    · rfl
  · intro h h1
    have hlen := hexDecodeIgnore_length h
    unfold Decode32Byte
    rw [hd h]
    simp only [Res.ok_bind]
    have := sliceRange_ok ⟨hexDecodeIgnore s, s.drop (hexDecodeIgnore s).length ++ extra⟩ 0 32 (by omega) (by simp [Slice.cap]; omega)
    simp only [Nat.cast_zero, Nat.cast_ofNat] at this
    rw [this]
    have e : (hexDecodeIgnore s).length = s.length / 2 := by omega
    simp only [Res.ok_bind, List.drop_zero, Res.pure_eq, e, List.append_assoc]
  · intro h h1
    have hlen := hexDecodeIgnore_length h
    unfold Decode32Byte
    rw [hd h]
    simp only [Res.ok_bind]
    have : (⟨hexDecodeIgnore s, s.drop (hexDecodeIgnore s).length ++ extra⟩ : Slice).sliceRange 0 32 = .panic := by
      unfold Slice.sliceRange
      rw [if_neg]
      simp only [Slice.cap, List.length_append, List.length_drop]
      omega
    rw [this, Res.panic_bind]

/-- C06 (c): on a valid hex string of 64 or more digits the result is the first 32 decoded bytes. -/
theorem C06_decode32_long (extra s : Bytes) (h : IsHex s) (hl : 64 ≤ s.length) : Decode32Byte extra s = .ok ((hexDecodeIgnore s).take 32) := by
  rw [(C06_decode32 extra s).2.1 h (by omega), List.append_assoc, List.take_append_of_le_length]
  have := hexDecodeIgnore_length h; omega

/-- C06, deviation: a valid hex string of 32 to 62 digits (16 to 31 bytes) is *accepted*, whatever the allocator does, and the result is padded
with leftover characters of the string. -/
theorem C06_decode32_violation (extra s : Bytes) (h : IsHex s) (h1 : 32 ≤ s.length) :
    ∃ b, Decode32Byte extra s = .ok b ∧ b.length = 32 ∧ b = (hexDecodeIgnore s ++ s.drop (s.length / 2)).take 32 := by
  have hlen := hexDecodeIgnore_length h
  refine ⟨_, (C06_decode32 extra s).2.1 h (by omega), ?_, ?_⟩
  · rw [List.length_take, List.length_append, List.length_append, List.length_drop]; omega
  · rw [List.take_append_of_le_length]
    rw [List.length_append, List.length_drop]; omega

/-- Concrete witness: 32 digits (16 zero bytes) decode to 16 zero bytes followed by 16 characters '0' (0x30). -/
theorem C06_decode32_violation_witness :
    ∃ s : Bytes, s.length = 32 ∧ IsHex s ∧ Decode32Byte [] s = .ok (List.replicate 16 0 ++ List.replicate 16 48) :=
  ⟨List.replicate 32 48, by decide +kernel, by decide +kernel, by decide +kernel⟩

end Verif.Props
