import Verif.Spec.Cipher
import Verif.Props.Encryption
/-!
# C97: the format of ciphertexts
-/
namespace Verif.Props
open Verif Verif.Spec

/-! ## base64 -/

theorem letter64_facts : ∀ n : Fin 64, char64 (UInt8.ofNat n.val) = letter64 n.val ∧ index64 (letter64 n.val) = some (UInt8.ofNat n.val) ∧ letter64 n.val ≠ 61 := by decide +kernel

theorem index64_facts : ∀ c : UInt8, ∀ x, index64 c = some x → x.toNat < 64 ∧ letter64 x.toNat = c := by
  have : ∀ c : UInt8, (match index64 c with | none => true | some x => decide (x.toNat < 64 ∧ letter64 x.toNat = c)) = true := by
    apply forall_uint8; decide +kernel
  intro c x h
  have := this c
  rw [h] at this
  simpa using this

theorem s1 (a : UInt8) : (a >>> 2).toNat = a.toNat / 4 ∧ ((a &&& 3) <<< 4).toNat = a.toNat % 4 * 16 ∧ ((a &&& 15) <<< 2).toNat = a.toNat % 16 * 4 ∧ (a &&& 63).toNat = a.toNat % 64 := by
  revert a; apply forall_uint8; decide +kernel

theorem s2 : ∀ n : Fin 16, ∀ a : Fin 4, ((UInt8.ofNat a.val) <<< 4 ||| UInt8.ofNat n.val).toNat = a.val * 16 + n.val := by decide +kernel
theorem s3 : ∀ n : Fin 4, ∀ a : Fin 16, ((UInt8.ofNat a.val) <<< 2 ||| UInt8.ofNat n.val).toNat = a.val * 4 + n.val := by decide +kernel

theorem s4 (a : UInt8) : (a >>> 4).toNat = a.toNat / 16 ∧ (a >>> 6).toNat = a.toNat / 64 ∧ (a &&& 3).toNat = a.toNat % 4 ∧ (a &&& 15).toNat = a.toNat % 16 := by
  revert a; apply forall_uint8; decide +kernel

theorem s2' (a b : UInt8) : (((a &&& 3) <<< 4) ||| (b >>> 4)).toNat = a.toNat % 4 * 16 + b.toNat / 16 := by
  have hb := b.toNat_lt
  have := s2 ⟨(b >>> 4).toNat, by rw [(s4 b).1]; omega⟩ ⟨(a &&& 3).toNat, by rw [(s4 a).2.2.1]; omega⟩
  simp only [UInt8.ofNat_toNat] at this
  rw [this, (s4 a).2.2.1, (s4 b).1]

theorem s3' (a b : UInt8) : (((a &&& 15) <<< 2) ||| (b >>> 6)).toNat = a.toNat % 16 * 4 + b.toNat / 64 := by
  have hb := b.toNat_lt
  have := s3 ⟨(b >>> 6).toNat, by rw [(s4 b).2.1]; omega⟩ ⟨(a &&& 15).toNat, by rw [(s4 a).2.2.2]; omega⟩
  simp only [UInt8.ofNat_toNat] at this
  rw [this, (s4 a).2.2.2, (s4 b).2.1]

theorem char64_letter (x : UInt8) (v : Nat) (h : x.toNat = v) (hv : v < 64) : char64 x = letter64 v := by
  subst h
  have := (letter64_facts ⟨x.toNat, hv⟩).1
  simpa using this

theorem base64_spec (t : Bytes) : IsBase64 t (base64Encode t) := by
  induction t using base64Encode.induct with
  | case1 => exact .nil
  | case2 a =>
    have ha := a.toNat_lt
    have : base64Encode [a] = (quad64 (a.toNat * 65536)).take 2 ++ [61, 61] := by
      rw [base64Encode, char64_letter _ (a.toNat * 65536 / 2 ^ 18) (by rw [(s1 a).1]; omega) (by omega),
        char64_letter _ (a.toNat * 65536 / 2 ^ 12 % 64) (by rw [(s1 a).2.1]; omega) (by omega)]
      rfl
    rw [this]; exact .one a
  | case3 a b =>
    have ha := a.toNat_lt
    have hb := b.toNat_lt
    have : base64Encode [a, b] = (quad64 (a.toNat * 65536 + b.toNat * 256)).take 3 ++ [61] := by
      rw [base64Encode, char64_letter _ ((a.toNat * 65536 + b.toNat * 256) / 2 ^ 18) (by rw [(s1 a).1]; omega) (by omega),
        char64_letter _ ((a.toNat * 65536 + b.toNat * 256) / 2 ^ 12 % 64) (by rw [s2']; omega) (by omega),
        char64_letter _ ((a.toNat * 65536 + b.toNat * 256) / 2 ^ 6 % 64) (by rw [(s1 b).2.2.1]; omega) (by omega)]
      rfl
    rw [this]; exact .two a b
  | case4 a b c rest ih =>
    have ha := a.toNat_lt
    have hb := b.toNat_lt
    have hc := c.toNat_lt
    have : base64Encode (a :: b :: c :: rest) = quad64 (a.toNat * 65536 + b.toNat * 256 + c.toNat) ++ base64Encode rest := by
      rw [base64Encode, char64_letter _ ((a.toNat * 65536 + b.toNat * 256 + c.toNat) / 2 ^ 18) (by rw [(s1 a).1]; omega) (by omega),
        char64_letter _ ((a.toNat * 65536 + b.toNat * 256 + c.toNat) / 2 ^ 12 % 64) (by rw [s2']; omega) (by omega),
        char64_letter _ ((a.toNat * 65536 + b.toNat * 256 + c.toNat) / 2 ^ 6 % 64) (by rw [s3']; omega) (by omega),
        char64_letter _ ((a.toNat * 65536 + b.toNat * 256 + c.toNat) % 64) (by rw [(s1 c).2.2.2]; omega) (by omega)]
      rfl
    rw [this]; exact .three a b c ih

theorem d1 : ∀ x y : Fin 64, ((UInt8.ofNat x.val) <<< 2 ||| (UInt8.ofNat y.val) >>> 4) = UInt8.ofNat ((x.val * 64 + y.val) / 16) ∧
    ((UInt8.ofNat x.val) <<< 4 ||| (UInt8.ofNat y.val) >>> 2) = UInt8.ofNat ((x.val * 64 + y.val) / 4) ∧
    ((UInt8.ofNat x.val) <<< 6 ||| UInt8.ofNat y.val) = UInt8.ofNat (x.val * 64 + y.val) := by decide +kernel

theorem base64Groups_iff (s : Bytes) : ∀ t, base64Groups s = .ok t ↔ ReadsBase64 s t := by
  have hne : ∀ x : Nat, x < 64 → letter64 x ≠ 61 := fun x hx => (letter64_facts ⟨x, hx⟩).2.2
  have hix : ∀ x : Nat, x < 64 → index64 (letter64 x) = some (UInt8.ofNat x) := fun x hx => (letter64_facts ⟨x, hx⟩).2.1
  have e2 : ∀ x y z : Nat, x < 64 → y < 64 → z < 64 → UInt8.ofNat ((x * 4096 + y * 64 + z) / 1024) = UInt8.ofNat ((x * 64 + y) / 16) ∧
      UInt8.ofNat ((x * 4096 + y * 64 + z) / 4) = UInt8.ofNat ((y * 64 + z) / 4) := by
    intro x y z hx hy hz
    constructor
    · congr 1; omega
    · apply UInt8.toNat_inj.mp; rw [UInt8.toNat_ofNat', UInt8.toNat_ofNat']; omega
  have e3 : ∀ x y z w : Nat, x < 64 → y < 64 → z < 64 → w < 64 →
      UInt8.ofNat ((x * 262144 + y * 4096 + z * 64 + w) / 65536) = UInt8.ofNat ((x * 64 + y) / 16) ∧
      UInt8.ofNat ((x * 262144 + y * 4096 + z * 64 + w) / 256) = UInt8.ofNat ((y * 64 + z) / 4) ∧
      UInt8.ofNat (x * 262144 + y * 4096 + z * 64 + w) = UInt8.ofNat (z * 64 + w) := by
    intro x y z w hx hy hz hw
    refine ⟨?_, ?_, ?_⟩
    · congr 1; omega
    · apply UInt8.toNat_inj.mp; rw [UInt8.toNat_ofNat', UInt8.toNat_ofNat']; omega
    · apply UInt8.toNat_inj.mp; rw [UInt8.toNat_ofNat', UInt8.toNat_ofNat']; omega
  intro t
  constructor
  · intro h
    induction s using base64Groups.induct generalizing t with
    | case1 => rw [base64Groups, Res.ok.injEq] at h; subst h; exact .nil
    | case2 a b d rest x y hy hx hd =>
      obtain ⟨rfl, rfl⟩ := hd
      rw [base64Groups] at h
      simp only [hx, hy, and_self, if_true, Res.ok.injEq] at h
      subst h
      obtain ⟨x1, x2⟩ := index64_facts _ _ hx
      obtain ⟨y1, y2⟩ := index64_facts _ _ hy
      have := ReadsBase64.one x.toNat y.toNat x1 y1
      have hd := (d1 ⟨x.toNat, x1⟩ ⟨y.toNat, y1⟩).1
      simp only [UInt8.ofNat_toNat] at hd
      rw [x2, y2, ← hd] at this
      exact this
    | case3 a b d rest x y hx hy h' =>
      rw [base64Groups] at h
      simp only [hx, hy, if_true, if_neg h'] at h
      cases h
    | case4 => rw [base64Groups] at h; simp_all
    | case5 a b c x y hy hx hc z hz =>
      rw [base64Groups] at h
      simp only [hx, hy, hc, hz, if_false, if_true, Res.ok.injEq] at h
      subst h
      obtain ⟨x1, x2⟩ := index64_facts _ _ hx
      obtain ⟨y1, y2⟩ := index64_facts _ _ hy
      obtain ⟨z1, z2⟩ := index64_facts _ _ hz
      have := ReadsBase64.two x.toNat y.toNat z.toNat x1 y1 z1
      rw [(e2 _ _ _ x1 y1 z1).1, (e2 _ _ _ x1 y1 z1).2] at this
      have hd := (d1 ⟨x.toNat, x1⟩ ⟨y.toNat, y1⟩).1
      have hd' := (d1 ⟨y.toNat, y1⟩ ⟨z.toNat, z1⟩).2.1
      simp only [UInt8.ofNat_toNat] at hd hd'
      rw [x2, y2, z2, ← hd, ← hd'] at this
      exact this
    | case6 => rw [base64Groups] at h; simp_all
    | case7 => rw [base64Groups] at h; simp_all
    | case8 a b c d rest x y hy hx hc z hz hd w hw ih =>
      rw [base64Groups] at h
      simp only [hx, hy, hc, hz, hd, hw, if_false] at h
      obtain ⟨r, hr, h⟩ := Res.bind_eq_ok.mp h
      simp only [Res.pure_eq, Res.ok.injEq] at h
      subst h
      obtain ⟨x1, x2⟩ := index64_facts _ _ hx
      obtain ⟨y1, y2⟩ := index64_facts _ _ hy
      obtain ⟨z1, z2⟩ := index64_facts _ _ hz
      obtain ⟨w1, w2⟩ := index64_facts _ _ hw
      have := ReadsBase64.three x.toNat y.toNat z.toNat w.toNat x1 y1 z1 w1 (ih r hr)
      obtain ⟨f1, f2, f3⟩ := e3 _ _ _ _ x1 y1 z1 w1
      rw [f1, f2, f3] at this
      have h1 := (d1 ⟨x.toNat, x1⟩ ⟨y.toNat, y1⟩).1
      have h2 := (d1 ⟨y.toNat, y1⟩ ⟨z.toNat, z1⟩).2.1
      have h3 := (d1 ⟨z.toNat, z1⟩ ⟨w.toNat, w1⟩).2.2
      simp only [UInt8.ofNat_toNat] at h1 h2 h3
      rw [x2, y2, z2, w2, ← h1, ← h2, ← h3] at this
      exact this
    | case9 => rw [base64Groups] at h; simp_all
    | case10 => rw [base64Groups] at h <;> simp_all
  · intro h
    induction h with
    | nil => rfl
    | one x y hx hy =>
      rw [base64Groups, hix x hx, hix y hy]
      simp only [and_self, if_true, (d1 ⟨x, hx⟩ ⟨y, hy⟩).1]
    | two x y z hx hy hz =>
      rw [base64Groups, hix x hx, hix y hy]
      simp only [hne z hz, if_false, hix z hz, if_true, (d1 ⟨x, hx⟩ ⟨y, hy⟩).1, (d1 ⟨y, hy⟩ ⟨z, hz⟩).2.1, (e2 _ _ _ hx hy hz).1, (e2 _ _ _ hx hy hz).2]
    | three x y z w hx hy hz hw _ ih =>
      obtain ⟨f1, f2, f3⟩ := e3 _ _ _ _ hx hy hz hw
      rw [base64Groups, hix x hx, hix y hy]
      simp only [hne z hz, hne w hw, if_false, hix z hz, hix w hw, ih, Res.ok_bind, Res.pure_eq, (d1 ⟨x, hx⟩ ⟨y, hy⟩).1, (d1 ⟨y, hy⟩ ⟨z, hz⟩).2.1, (d1 ⟨z, hz⟩ ⟨w, hw⟩).2.2,
        f1, f2, f3]

/-! ## CFB -/

theorem getD_zipWith (s k : Bytes) (j : Nat) (h : j < s.length) (h' : j < k.length) : (List.zipWith (· ^^^ ·) s k).getD j 0 = s.getD j 0 ^^^ k.getD j 0 := by
  simp [List.getD_eq_getElem?_getD, h, h']

theorem getD_append_left' (a b : Bytes) (j : Nat) (h : j < a.length) : (a ++ b).getD j 0 = a.getD j 0 := by
  rw [List.getD_eq_getElem?_getD, List.getElem?_append_left h, List.getD_eq_getElem?_getD]

theorem getD_append_right' (a b : Bytes) (j : Nat) (h : a.length ≤ j) : (a ++ b).getD j 0 = b.getD (j - a.length) 0 := by
  rw [List.getD_eq_getElem?_getD, List.getElem?_append_right h, List.getD_eq_getElem?_getD]

theorem cfbEncrypt_spec (E : Bytes → Bytes) (hE : ∀ b, (E b).length = 16) : ∀ (fuel : Nat) (next src : Bytes), src.length ≤ fuel → next.length = 16 →
    IsCFB E next src (cfbEncrypt E fuel next src) := by
  intro fuel
  induction fuel with
  | zero =>
    intro next src h _
    have : src = [] := by simpa using h
    subst this; exact ⟨rfl, by simp⟩
  | succ fuel ih =>
    intro next src h hn
    refine ⟨cfbEncrypt_length E hE _ _ _ h, ?_⟩
    intro j hj
    have h0 : src ≠ [] := by rintro rfl; simp at hj
    rw [cfbEncrypt, if_neg h0]
    dsimp only
    generalize hd : List.zipWith (· ^^^ ·) (src.take 16) (E next) = dst
    have hdl : dst.length = min 16 src.length := by
      rw [← hd, List.length_zipWith, List.length_take, hE]; omega
    by_cases hj16 : j < 16
    · have hk : j / 16 = 0 := by omega
      have hm : j % 16 = j := by omega
      rw [hk, hm, Nat.mul_zero, List.drop_zero, List.take_append_of_le_length (by omega), List.take_of_length_le (show next.length ≤ 16 by omega)]
      rw [getD_append_left' _ _ _ (by omega), ← hd, getD_zipWith _ _ _ (by simp; omega) (by rw [hE]; omega)]
      simp [List.getD_eq_getElem?_getD, hj16]
    · have hlen : dst.length = 16 := by omega
      obtain ⟨_, h2⟩ := ih dst (src.drop 16) (by simp; omega) hlen
      have := h2 (j - 16) (by simp; omega)
      rw [getD_append_right' _ _ _ (by omega), hlen, this]
      have e1 : (src.drop 16).getD (j - 16) 0 = src.getD j 0 := by
        rw [List.getD_eq_getElem?_getD, List.getD_eq_getElem?_getD, List.getElem?_drop, show 16 + (j - 16) = j by omega]
      have e2 : (j - 16) % 16 = j % 16 := by omega
      have e3 : (next ++ (dst ++ cfbEncrypt E fuel dst (src.drop 16))).drop (16 * (j / 16)) = (dst ++ cfbEncrypt E fuel dst (src.drop 16)).drop (16 * ((j - 16) / 16)) := by
        rw [show 16 * (j / 16) = next.length + 16 * ((j - 16) / 16) by omega, List.drop_append]
        simp
      rw [e1, e2, e3]

theorem cfbDecrypt_spec (E : Bytes → Bytes) (hE : ∀ b, (E b).length = 16) : ∀ (fuel : Nat) (next src : Bytes), src.length ≤ fuel → next.length = 16 →
    IsCFB E next (cfbDecrypt E fuel next src) src := by
  intro fuel
  induction fuel with
  | zero =>
    intro next src h _
    have : src = [] := by simpa using h
    subst this; exact ⟨rfl, by simp [cfbDecrypt]⟩
  | succ fuel ih =>
    intro next src h hn
    have hl := cfbDecrypt_length E hE (fuel + 1) next src h
    refine ⟨hl.symm, ?_⟩
    intro j hj
    rw [hl] at hj
    have h0 : src ≠ [] := by rintro rfl; simp at hj
    rw [cfbDecrypt, if_neg h0]
    dsimp only
    generalize hd : List.zipWith (· ^^^ ·) (src.take 16) (E next) = dst
    have hdl : dst.length = min 16 src.length := by
      rw [← hd, List.length_zipWith, List.length_take, hE]; omega
    by_cases hj16 : j < 16
    · have hk : j / 16 = 0 := by omega
      have hm : j % 16 = j := by omega
      rw [hk, hm, Nat.mul_zero, List.drop_zero, List.take_append_of_le_length (by omega), List.take_of_length_le (show next.length ≤ 16 by omega)]
      rw [getD_append_left' _ _ _ (by omega), ← hd, getD_zipWith _ _ _ (by simp; omega) (by rw [hE]; omega)]
      rw [UInt8.xor_assoc, UInt8.xor_self, UInt8.xor_zero]
      simp [List.getD_eq_getElem?_getD, hj16]
    · have hlen : dst.length = 16 := by omega
      have htl : (src.take 16).length = 16 := by rw [List.length_take]; omega
      obtain ⟨h1, h2⟩ := ih (src.take 16) (src.drop 16) (by simp; omega) htl
      have := h2 (j - 16) (by rw [← h1]; simp; omega)
      rw [getD_append_right' _ _ _ (by omega), hlen]
      have e1 : (src.drop 16).getD (j - 16) 0 = src.getD j 0 := by
        rw [List.getD_eq_getElem?_getD, List.getD_eq_getElem?_getD, List.getElem?_drop, show 16 + (j - 16) = j by omega]
      have e2 : (j - 16) % 16 = j % 16 := by omega
      have e3 : (next ++ src).drop (16 * (j / 16)) = (src.take 16 ++ src.drop 16).drop (16 * ((j - 16) / 16)) := by
        rw [show 16 * (j / 16) = next.length + 16 * ((j - 16) / 16) by omega, List.drop_append, List.take_append_drop]
        simp
      rw [e1, e2] at this
      rw [this, e3]

theorem isCFB_plain_unique (E : Bytes → Bytes) (iv p q c : Bytes) (h : IsCFB E iv p c) (h' : IsCFB E iv q c) : p = q := by
  apply List.ext_getElem (h.1.symm.trans h'.1)
  intro j h1 h2
  have a := h.2 j h1
  have b := h'.2 j h2
  rw [a] at b
  have := congrArg (· ^^^ (E (((iv ++ c).drop (16 * (j / 16))).take 16)).getD (j % 16) 0) b
  simp only [UInt8.xor_assoc, UInt8.xor_self, UInt8.xor_zero] at this
  simpa [List.getD_eq_getElem?_getD, List.getElem?_eq_getElem, h1, h2] using this

theorem isCFB_cipher_unique (E : Bytes → Bytes) (iv p c d : Bytes) (hiv : iv.length = 16) (h : IsCFB E iv p c) (h' : IsCFB E iv p d) : c = d := by
  have hl : c.length = d.length := h.1.trans h'.1.symm
  have key : ∀ n, c.take n = d.take n := by
    intro n
    induction n with
    | zero => simp
    | succ n ih =>
      by_cases hn : n < p.length
      · have a := h.2 n hn
        have b := h'.2 n hn
        have hk : ((iv ++ c).drop (16 * (n / 16))).take 16 = ((iv ++ d).drop (16 * (n / 16))).take 16 := by
          have e : ∀ x : Bytes, ((iv ++ x).drop (16 * (n / 16))).take 16 = ((iv ++ x.take n).drop (16 * (n / 16))).take 16 := by
            intro x
            have : iv ++ x.take n = (iv ++ x).take (16 + n) := by
              rw [List.take_append, hiv, List.take_of_length_le (show iv.length ≤ 16 + n by omega), show 16 + n - 16 = n by omega]
            rw [this, List.drop_take, List.take_take]
            congr 1; omega
          rw [e c, e d, ih]
        rw [hk, ← b] at a
        have hc : n < c.length := by rw [h.1]; exact hn
        have hd : n < d.length := by rw [h'.1]; exact hn
        rw [List.take_add_one, List.take_add_one, ih, List.getElem?_eq_getElem hc, List.getElem?_eq_getElem hd]
        have : c[n] = d[n] := by simpa [List.getD_eq_getElem?_getD, List.getElem?_eq_getElem, hc, hd] using a
        rw [this]
      · rw [List.take_of_length_le (by rw [h.1]; omega), List.take_of_length_le (by rw [h'.1]; omega)]
        have := ih
        rwa [List.take_of_length_le (by rw [h.1]; omega), List.take_of_length_le (by rw [h'.1]; omega)] at this
  have := key c.length
  rwa [List.take_of_length_le (le_refl _), hl, List.take_of_length_le (le_refl _)] at this

/-! ## the properties -/

/-- C97: what `Encrypt` returns, exactly: the initialisation vector followed by the CFB encryption of the base64 text. -/
theorem C97_encrypt (ciph : BlockCipher) (h16 : ciph.BlockSize = 16) (iv text : Bytes) (hiv : iv.length = 16) (c : Bytes) :
    Encrypt ciph (some iv) text = .ok c ↔ ∃ p body, IsBase64 text p ∧ IsCFB ciph.Encrypt iv p body ∧ c = iv ++ body := by
  have hE : ∀ b, (ciph.Encrypt b).length = 16 := fun b => by rw [ciph.Encrypt_length, h16]
  have hu : ∀ t p q, IsBase64 t p → IsBase64 t q → p = q := by
    intro t p q h
    induction h generalizing q with
    | nil => intro h; cases h; rfl
    | one a => intro h; cases h; rfl
    | two a b => intro h; cases h; rfl
    | three a b c _ ih => intro h; cases h with | three _ _ _ h => rw [ih _ h]
  have hs := cfbEncrypt_spec ciph.Encrypt hE _ iv (base64Encode text) (le_refl _) hiv
  rw [Encrypt, if_neg (by omega), Res.ok.injEq]
  constructor
  · rintro rfl; exact ⟨_, _, base64_spec text, hs, rfl⟩
  · rintro ⟨p, body, h1, h2, rfl⟩
    rw [hu _ _ _ h1 (base64_spec text)] at h2
    rw [isCFB_cipher_unique _ _ _ _ _ hiv h2 hs]

/-- C97: what `Decrypt` accepts, exactly: at least 16 bytes, of which those behind the first 16 decrypt to a base64 text, line breaks anywhere, padding bits arbitrary. -/
theorem C97_decrypt (ciph : BlockCipher) (h16 : ciph.BlockSize = 16) (c text : Bytes) :
    (Decrypt ciph c).1 = .ok text ↔ 16 ≤ c.length ∧ ∃ p, IsCFB ciph.Encrypt (c.take 16) p (c.drop 16) ∧ ReadsBase64 (withoutNewlines p) text := by
  have hE : ∀ b, (ciph.Encrypt b).length = 16 := fun b => by rw [ciph.Encrypt_length, h16]
  unfold Decrypt
  by_cases h : c.length < 16
  · rw [if_pos h]
    constructor
    · intro h; cases h
    · rintro ⟨h', _⟩; omega
  · rw [if_neg h, if_neg (by omega)]
    dsimp only
    have hs := cfbDecrypt_spec ciph.Encrypt hE _ (c.take 16) (c.drop 16) (le_refl _) (by rw [List.length_take]; omega)
    unfold base64Decode
    rw [base64Groups_iff]
    constructor
    · intro hr; exact ⟨by omega, _, hs, hr⟩
    · rintro ⟨_, p, hp, hr⟩
      rw [isCFB_plain_unique _ _ _ _ _ hs hp]
      exact hr

/-- The text xor the difference of two others. -/
def tamper (c p q : Bytes) : Bytes := List.zipWith (· ^^^ ·) c (List.zipWith (· ^^^ ·) p q)

/-- C97 (deviation): ciphertexts are not authenticated. Whoever knows a text of at most 12 bytes can turn its ciphertext into the ciphertext of any other text of that
length, without the key: `Decrypt` does not notice. -/
theorem C97_forgery (ciph : BlockCipher) (h16 : ciph.BlockSize = 16) (iv text other c p q : Bytes) (hiv : iv.length = 16) (hl : text.length = other.length) (h12 : text.length ≤ 12)
    (hp : IsBase64 text p) (hq : IsBase64 other q) (h : Encrypt ciph (some iv) text = .ok c) :
    (Decrypt ciph (iv ++ tamper (c.drop 16) p q)).1 = .ok other := by
  have hE : ∀ b, (ciph.Encrypt b).length = 16 := fun b => by rw [ciph.Encrypt_length, h16]
  obtain ⟨p', body, h1, h2, rfl⟩ := (C97_encrypt ciph h16 iv text hiv c).mp h
  have hu : ∀ t p q, IsBase64 t p → IsBase64 t q → p = q := by
    intro t p q h
    induction h generalizing q with
    | nil => intro h; cases h; rfl
    | one a => intro h; cases h; rfl
    | two a b => intro h; cases h; rfl
    | three a b c _ ih => intro h; cases h with | three _ _ _ h => rw [ih _ h]
  have e1 := hu _ _ _ hp (base64_spec text)
  have e2 := hu _ _ _ hq (base64_spec other)
  have e3 := hu _ _ _ h1 (base64_spec text)
  subst e1 e2 e3
  rw [List.drop_append, hiv, List.drop_of_length_le (by omega), Nat.sub_self, List.drop_zero, List.nil_append]
  have hpl : (base64Encode text).length ≤ 16 := by rw [base64_length]; omega
  have hql : (base64Encode other).length = (base64Encode text).length := by rw [base64_length, base64_length, hl]
  have hbl := h2.1
  have hs : IsCFB ciph.Encrypt iv (base64Encode other) (tamper body (base64Encode text) (base64Encode other)) := by
    have htl : (tamper body (base64Encode text) (base64Encode other)).length = (base64Encode other).length := by
      unfold tamper
      rw [List.length_zipWith, List.length_zipWith]; omega
    refine ⟨htl, ?_⟩
    intro j hj
    have a := h2.2 j (by omega)
    have hk : j / 16 = 0 := by omega
    rw [hk, Nat.mul_zero, List.drop_zero, List.take_append_of_le_length (by omega), List.take_of_length_le (by omega)] at a ⊢
    unfold tamper
    rw [getD_zipWith _ _ _ (by omega) (by rw [List.length_zipWith]; omega), getD_zipWith _ _ _ (by omega) (by omega), a]
    generalize (base64Encode text).getD j 0 = x
    generalize (base64Encode other).getD j 0 = y
    generalize (ciph.Encrypt iv).getD (j % 16) 0 = z
    rw [UInt8.xor_comm x z, UInt8.xor_assoc, ← UInt8.xor_assoc x x y, UInt8.xor_self, UInt8.zero_xor, UInt8.xor_comm]
  refine (C97_decrypt ciph h16 _ _).mpr ⟨by simp; omega, base64Encode other, ?_, ?_⟩
  · rw [List.take_append_of_le_length (by omega), List.take_of_length_le (by omega), List.drop_append_of_le_length (by omega), List.drop_of_length_le (by omega), List.nil_append]
    exact hs
  · rw [← base64Groups_iff]
    exact base64_roundtrip other

/-- non-vacuity: both base64 relations on the RFC's test vectors, and a forged ciphertext -/
example : IsBase64 b!"foobar" b!"Zm9vYmFy" ∧ IsBase64 b!"foob" b!"Zm9vYg==" ∧ IsBase64 b!"fooba" b!"Zm9vYmE=" :=
  ⟨base64_spec _, base64_spec _, base64_spec _⟩
example : ReadsBase64 b!"Zm9vYh==" b!"foob" := (base64Groups_iff _ _).mp (by decide +kernel)
example : ∃ c, Encrypt toyCipher (some (List.replicate 16 9)) b!"pay Bob 10" = .ok c ∧
    (Decrypt toyCipher (List.replicate 16 9 ++ tamper (c.drop 16) (base64Encode b!"pay Bob 10") (base64Encode b!"pay Eve 99"))).1 = .ok b!"pay Eve 99" := by
  refine ⟨_, rfl, ?_⟩
  decide +kernel

end Verif.Props
