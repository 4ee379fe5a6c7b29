import Verif.Model.Utils
import Mathlib.Tactic.Ring
import Mathlib.Tactic.Linarith
/-! # Lemmas on bytes, little-endian integers, hex, reversal and slices -/
namespace Verif

theorem forall_uint8 {P : UInt8 → Prop} (h : ∀ n : Fin 256, P (UInt8.ofNat n.val)) (b : UInt8) : P b := by
  have := h ⟨b.toNat, b.toNat_lt⟩
  simpa using this

/-! ## little endian -/

@[simp] theorem leBytes_length (n v : Nat) : (leBytes n v).length = n := by
  induction n generalizing v with
  | zero => rfl
  | succ n ih => simp [leBytes, ih]

theorem leNat_leBytes (n v : Nat) : leNat (leBytes n v) = v % 256 ^ n := by
  induction n generalizing v with
  | zero => simp [leBytes, leNat, Nat.mod_one]
  | succ n ih =>
    have hlt : v % 256 < 256 := Nat.mod_lt _ (by decide)
    simp only [leBytes, leNat, ih, UInt8.toNat_ofNat']
    rw [show (256:Nat) ^ (n+1) = 256 * 256 ^ n by ring, Nat.mod_mul, Nat.mod_eq_of_lt (by omega : v % 256 < 2 ^ 8)]

theorem leNat_lt (b : Bytes) : leNat b < 256 ^ b.length := by
  induction b with
  | nil => simp [leNat]
  | cons x xs ih =>
    have := x.toNat_lt
    simp only [leNat, List.length_cons, pow_succ]
    omega

theorem leBytes_leNat (b : Bytes) : leBytes b.length (leNat b) = b := by
  induction b with
  | nil => rfl
  | cons x xs ih =>
    have hx := x.toNat_lt
    have hd : (x.toNat + 256 * leNat xs) / 256 = leNat xs := by omega
    have hm : (x.toNat + 256 * leNat xs) % 256 = x.toNat := by omega
    simp only [List.length_cons, leBytes, leNat, hd, hm, ih, UInt8.ofNat_toNat]

theorem leBytes_inj {n v w : Nat} (hv : v < 256 ^ n) (hw : w < 256 ^ n) (h : leBytes n v = leBytes n w) : v = w := by
  have := congrArg leNat h
  rwa [leNat_leBytes, leNat_leBytes, Nat.mod_eq_of_lt hv, Nat.mod_eq_of_lt hw] at this

@[simp] theorem putUint16_length (v : UInt16) : (putUint16 v).length = 2 := by simp [putUint16]
@[simp] theorem putUint32_length (v : UInt32) : (putUint32 v).length = 4 := by simp [putUint32]
@[simp] theorem putUint64_length (v : UInt64) : (putUint64 v).length = 8 := by simp [putUint64]

theorem leNat_putUint16 (v : UInt16) : leNat (putUint16 v) = v.toNat := by
  rw [putUint16, leNat_leBytes, Nat.mod_eq_of_lt]; have := v.toNat_lt; omega
theorem leNat_putUint32 (v : UInt32) : leNat (putUint32 v) = v.toNat := by
  rw [putUint32, leNat_leBytes, Nat.mod_eq_of_lt]; have := v.toNat_lt; omega
theorem leNat_putUint64 (v : UInt64) : leNat (putUint64 v) = v.toNat := by
  rw [putUint64, leNat_leBytes, Nat.mod_eq_of_lt]; have := v.toNat_lt; omega

@[simp] theorem getUint16_put (v : UInt16) (t : Bytes) : getUint16 (putUint16 v ++ t) = .ok v := by
  have h : (putUint16 v ++ t).take 2 = putUint16 v := by
    rw [List.take_append_of_le_length (by simp), List.take_of_length_le (by simp)]
  simp [getUint16, h, leNat_putUint16]
@[simp] theorem getUint32_put (v : UInt32) (t : Bytes) : getUint32 (putUint32 v ++ t) = .ok v := by
  have h : (putUint32 v ++ t).take 4 = putUint32 v := by
    rw [List.take_append_of_le_length (by simp), List.take_of_length_le (by simp)]
  simp [getUint32, h, leNat_putUint32]
@[simp] theorem getUint64_put (v : UInt64) (t : Bytes) : getUint64 (putUint64 v ++ t) = .ok v := by
  have h : (putUint64 v ++ t).take 8 = putUint64 v := by
    rw [List.take_append_of_le_length (by simp), List.take_of_length_le (by simp)]
  simp [getUint64, h, leNat_putUint64]
@[simp] theorem getUint16_put' (v : UInt16) : getUint16 (putUint16 v) = .ok v := by simpa using getUint16_put v []
@[simp] theorem getUint32_put' (v : UInt32) : getUint32 (putUint32 v) = .ok v := by simpa using getUint32_put v []
@[simp] theorem getUint64_put' (v : UInt64) : getUint64 (putUint64 v) = .ok v := by simpa using getUint64_put v []

theorem putUint32_ofNat_leNat {b : Bytes} (h : b.length = 4) : putUint32 (UInt32.ofNat (leNat b)) = b := by
  have h1 := leNat_lt b
  rw [h] at h1
  have h2 := leBytes_leNat b
  rw [h] at h2
  simp only [putUint32, UInt32.toNat_ofNat']
  rw [Nat.mod_eq_of_lt (by omega), h2]
theorem putUint64_ofNat_leNat {b : Bytes} (h : b.length = 8) : putUint64 (UInt64.ofNat (leNat b)) = b := by
  have h1 := leNat_lt b
  rw [h] at h1
  have h2 := leBytes_leNat b
  rw [h] at h2
  simp only [putUint64, UInt64.toNat_ofNat']
  rw [Nat.mod_eq_of_lt (by omega), h2]
theorem putUint16_ofNat_leNat {b : Bytes} (h : b.length = 2) : putUint16 (UInt16.ofNat (leNat b)) = b := by
  have h1 := leNat_lt b
  rw [h] at h1
  have h2 := leBytes_leNat b
  rw [h] at h2
  simp only [putUint16, UInt16.toNat_ofNat']
  rw [Nat.mod_eq_of_lt (by omega), h2]

theorem putUint32_inj {v w : UInt32} (h : putUint32 v = putUint32 w) : v = w := by
  have := congrArg leNat h
  rw [leNat_putUint32, leNat_putUint32] at this
  exact UInt32.toNat_inj.mp this
theorem putUint64_inj {v w : UInt64} (h : putUint64 v = putUint64 w) : v = w := by
  have := congrArg leNat h
  rw [leNat_putUint64, leNat_putUint64] at this
  exact UInt64.toNat_inj.mp this

/-! ## append -/

theorem append_inj_left {α : Type} {a b c d : List α} (h : a ++ b = c ++ d) (hl : a.length = c.length) : a = c ∧ b = d :=
  List.append_inj h hl

/-! ## reversal -/

theorem reverseLoop_spec (fuel : Nat) : ∀ (pre mid post : Bytes), mid.length ≤ 2 * fuel + 1 →
    reverseLoop fuel (pre ++ mid ++ post) pre.length (pre.length + mid.length - 1) = pre ++ mid.reverse ++ post := by
  induction fuel with
  | zero =>
    intro pre mid post h
    match mid, h with
    | [], _ => simp [reverseLoop]
    | [x], _ => simp [reverseLoop]
  | succ fuel ih =>
    intro pre mid post h
    rcases mid with _ | ⟨x, mid⟩
    · simp [reverseLoop]
    · rcases List.eq_nil_or_concat mid with rfl | ⟨m, y, rfl⟩
      · simp [reverseLoop]
      · have hlt : pre.length < pre.length + (x :: (m ++ [y])).length - 1 := by simp
        have hj : pre.length + (x :: (m ++ [y])).length - 1 = pre.length + 1 + m.length := by simp; omega
        simp only [reverseLoop, if_pos hlt, List.concat_eq_append]
        rw [hj]
        have e1 : (pre ++ x :: (m ++ [y]) ++ post).getD pre.length 0 = x := by simp [List.getD]
        have e2 : (pre ++ x :: (m ++ [y]) ++ post).getD (pre.length + 1 + m.length) 0 = y := by
          have : (pre ++ x :: (m ++ [y]) ++ post) = (pre ++ [x] ++ m) ++ (y :: post) := by simp
          rw [this, List.getD, List.getElem?_append_right (by simp; omega)]
          rw [show pre.length + 1 + m.length - (pre ++ [x] ++ m).length = 0 by simp; omega]
          simp
        rw [e1, e2]
        have e3 : ((pre ++ x :: (m ++ [y]) ++ post).set pre.length y).set (pre.length + 1 + m.length) x
            = (pre ++ [y]) ++ m ++ ([x] ++ post) := by
          have h1 : (pre ++ x :: (m ++ [y]) ++ post).set pre.length y = (pre ++ [y] ++ m) ++ (y :: post) := by
            simp [List.append_assoc]
          rw [h1, List.set_append_right _ _ (by simp; omega)]
          rw [show pre.length + 1 + m.length - (pre ++ [y] ++ m).length = 0 by simp; omega]
          simp
        rw [e3]
        have := ih (pre ++ [y]) m ([x] ++ post) (by simp at h; omega)
        simp only [List.length_append, List.length_cons, List.length_nil] at this
        rw [show pre.length + 1 + m.length - 1 = pre.length + (0 + 1) + m.length - 1 by omega]
        rw [this]
        simp

@[simp] theorem ReverseBytes_eq (a : Bytes) : ReverseBytes a = a.reverse := by
  have := reverseLoop_spec a.length [] a [] (by omega)
  simpa [ReverseBytes] using this

/-! ## hex -/

theorem hex_byte (b : UInt8) : fromHexChar (hexChar (b >>> 4)) = some (b >>> 4) ∧ fromHexChar (hexChar (b &&& 15)) = some (b &&& 15) ∧
    ((b >>> 4) <<< 4 ||| (b &&& 15)) = b := by
  revert b
  apply forall_uint8
  decide +kernel

@[simp] theorem hexEncode_length (b : Bytes) : (hexEncode b).length = 2 * b.length := by
  induction b with
  | nil => rfl
  | cons x xs ih => simp [hexEncode, ih]; omega

theorem hexEncode_append (a b : Bytes) : hexEncode (a ++ b) = hexEncode a ++ hexEncode b := by
  induction a with
  | nil => rfl
  | cons x xs ih => simp [hexEncode, ih]

@[simp] theorem hexDecode_encode (b : Bytes) : hexDecode (hexEncode b) = (b, none) := by
  induction b with
  | nil => rfl
  | cons x xs ih =>
    obtain ⟨h1, h2, h3⟩ := hex_byte x
    simp [hexEncode, hexDecode, h1, h2, h3, ih]

@[simp] theorem hexDecodeIgnore_encode (b : Bytes) : hexDecodeIgnore (hexEncode b) = b := by simp [hexDecodeIgnore]
@[simp] theorem hexDecodeRes_encode (b : Bytes) : hexDecodeRes (hexEncode b) = .ok b := by simp [hexDecodeRes]

theorem hexEncode_inj {a b : Bytes} (h : hexEncode a = hexEncode b) : a = b := by
  have := congrArg hexDecodeIgnore h
  simpa using this

/-- A string `hex.DecodeString` accepts. -/
def IsHex (s : Bytes) : Prop := s.length % 2 = 0 ∧ ∀ c ∈ s, (fromHexChar c).isSome

theorem hexDecode_ok {s : Bytes} (h : (hexDecode s).2 = none) :
    s.length = 2 * (hexDecode s).1.length ∧ IsHex s := by
  induction s using hexDecode.induct with
  | case1 => simp [hexDecode, IsHex]
  | case2 c v h1 => simp [hexDecode, h1] at h
  | case3 c h1 => simp [hexDecode, h1] at h
  | case4 a b rest x y h1 h2 ih =>
    simp only [hexDecode, h1, h2] at h ⊢
    obtain ⟨i1, i2, i3⟩ := ih h
    refine ⟨by simp; omega, ?_, ?_⟩
    · simp; omega
    · intro c hc
      simp only [List.mem_cons] at hc
      rcases hc with rfl | rfl | hc
      · exact Option.isSome_iff_exists.mpr ⟨_, h2⟩
      · exact Option.isSome_iff_exists.mpr ⟨_, h1⟩
      · exact i3 c hc
  | case5 a b rest h1 =>
    simp only [hexDecode] at h
    simp at h

theorem hexDecode_isHex {s : Bytes} (h : IsHex s) : (hexDecode s).2 = none := by
  induction s using hexDecode.induct with
  | case1 => simp [hexDecode]
  | case2 c v h1 => simp [IsHex] at h
  | case3 c h1 => simp [IsHex] at h
  | case4 a b rest x y h1 h2 ih =>
    simp only [hexDecode, h1, h2]
    apply ih
    obtain ⟨i1, i2⟩ := h
    refine ⟨by simp at i1; omega, fun c hc => i2 c (by simp [hc])⟩
  | case5 a b rest h1 =>
    obtain ⟨i1, i2⟩ := h
    have ha := i2 a (by simp)
    have hb := i2 b (by simp)
    obtain ⟨x, hx⟩ := Option.isSome_iff_exists.mp ha
    obtain ⟨y, hy⟩ := Option.isSome_iff_exists.mp hb
    exact absurd hy (h1 x y hx)

theorem hexDecodeRes_ok_iff {s b : Bytes} : hexDecodeRes s = .ok b ↔ IsHex s ∧ hexDecodeIgnore s = b := by
  unfold hexDecodeRes hexDecodeIgnore
  constructor
  · intro h
    have hn : (hexDecode s).2 = none := by
      rcases hd : hexDecode s with ⟨x, _ | e⟩ <;> simp [hd] at h ⊢
    refine ⟨(hexDecode_ok hn).2, ?_⟩
    rcases hd : hexDecode s with ⟨x, _ | e⟩ <;> simp [hd] at h ⊢
    exact h
  · rintro ⟨h1, h2⟩
    have hn := hexDecode_isHex h1
    rcases hd : hexDecode s with ⟨x, _ | e⟩ <;> simp [hd] at hn h2 ⊢
    exact h2

theorem hexDecodeIgnore_length {s : Bytes} (h : IsHex s) : s.length = 2 * (hexDecodeIgnore s).length :=
  (hexDecode_ok (hexDecode_isHex h)).1

theorem hexDecodeRes_isHex {s : Bytes} (h : IsHex s) : hexDecodeRes s = .ok (hexDecodeIgnore s) :=
  hexDecodeRes_ok_iff.mpr ⟨h, rfl⟩

theorem hexDecodeRes_not_panic (s : Bytes) : hexDecodeRes s ≠ .panic := by
  unfold hexDecodeRes
  rcases hexDecode s with ⟨x, _ | e⟩ <;> simp

theorem hexDecodeRes_not_isHex {s : Bytes} (h : ¬ IsHex s) : ∃ e, hexDecodeRes s = .err e := by
  rcases hr : hexDecodeRes s with b | e | _
  · exact absurd (hexDecodeRes_ok_iff.mp hr).1 h
  · exact ⟨e, rfl⟩
  · exact absurd hr (hexDecodeRes_not_panic s)

theorem isHex_encode (b : Bytes) : IsHex (hexEncode b) := by
  have : hexDecodeRes (hexEncode b) = .ok b := by simp
  exact (hexDecodeRes_ok_iff.mp this).1

instance (s : Bytes) : Decidable (IsHex s) := by unfold IsHex; infer_instance

/-! ## slices -/

theorem sliceFrom_ok (s : Slice) (n : Nat) (h : n ≤ s.len) : s.sliceFrom (n : Int) = .ok ⟨s.data.drop n, s.spare⟩ := by
  simp [Slice.sliceFrom, h]

theorem sliceFrom_ok_iff {s : Slice} {lo : Int} {t : Slice} :
    s.sliceFrom lo = .ok t ↔ ∃ n : Nat, lo = n ∧ n ≤ s.len ∧ t = ⟨s.data.drop n, s.spare⟩ := by
  unfold Slice.sliceFrom
  split
  · rename_i h
    constructor
    · intro e; injection e with e
      exact ⟨lo.toNat, by omega, by omega, e.symm⟩
    · rintro ⟨n, rfl, _, rfl⟩; simp
  · rename_i h
    simp only [reduceCtorEq, false_iff, not_exists, not_and]
    rintro n rfl hn; omega

theorem sliceFrom_not_err (s : Slice) (lo : Int) (m : String) : s.sliceFrom lo ≠ .err m := by
  unfold Slice.sliceFrom; split <;> simp

theorem sliceRange_ok (s : Slice) (lo hi : Nat) (h1 : lo ≤ hi) (h2 : hi ≤ s.cap) :
    s.sliceRange (lo : Int) (hi : Int) = .ok ⟨((s.data ++ s.spare).take hi).drop lo, (s.data ++ s.spare).drop hi⟩ := by
  have : (0:Int) ≤ lo ∧ (lo:Int) ≤ hi ∧ (hi:Int) ≤ s.cap := by omega
  simp [Slice.sliceRange, this]

theorem sliceRange_ok_iff {s : Slice} {lo hi : Int} {t : Slice} :
    s.sliceRange lo hi = .ok t ↔ ∃ a b : Nat, lo = a ∧ hi = b ∧ a ≤ b ∧ b ≤ s.cap ∧
      t = ⟨((s.data ++ s.spare).take b).drop a, (s.data ++ s.spare).drop b⟩ := by
  unfold Slice.sliceRange
  split
  · rename_i h
    constructor
    · intro e; injection e with e
      exact ⟨lo.toNat, hi.toNat, by omega, by omega, by omega, by omega, e.symm⟩
    · rintro ⟨a, b, rfl, rfl, _, _, rfl⟩; simp
  · rename_i h
    simp only [reduceCtorEq, false_iff, not_exists, not_and]
    rintro a b rfl rfl hab hb; omega

theorem sliceRange_not_err (s : Slice) (lo hi : Int) (m : String) : s.sliceRange lo hi ≠ .err m := by
  unfold Slice.sliceRange; split <;> simp

theorem take_append_le {α : Type} (l m : List α) (n : Nat) (h : n ≤ l.length) : (l ++ m).take n = l.take n :=
  List.take_append_of_le_length h

theorem wrap64_eq {x : Int} (h : -2 ^ 63 ≤ x) (h' : x < 2 ^ 63) : wrap64 x = x := by
  unfold wrap64; omega

theorem index_ok_iff {α : Type} {l : List α} {i : Nat} {a : α} : index l i = .ok a ↔ l[i]? = some a := by
  unfold index; split <;> simp_all

theorem index_panic_iff {α : Type} {l : List α} {i : Nat} : index l i = .panic ↔ l.length ≤ i := by
  unfold index
  split
  · rename_i h; have := (List.getElem?_eq_some_iff.mp h).1; simp; omega
  · rename_i h; simpa using h

theorem index_not_err {α : Type} (l : List α) (i : Nat) (m : String) : index l i ≠ .err m := by
  unfold index; split <;> simp

@[simp] theorem index_cons_zero {α : Type} (a : α) (l : List α) : index (a :: l) 0 = .ok a := rfl
@[simp] theorem index_cons_succ {α : Type} (a : α) (l : List α) (n : Nat) : index (a :: l) (n+1) = index l n := rfl
@[simp] theorem index_nil {α : Type} (n : Nat) : index ([] : List α) n = .panic := rfl

end Verif
