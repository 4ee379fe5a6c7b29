import Verif.Model.Encryption
import Verif.Model.Crypto
import Verif.Lemmas.Basic
import Verif.Props.Redeem
/-!
# C61, C62: encryption; C63: hashes
-/
namespace Verif.Props
open Verif

/-! ## base64 -/

theorem char64_facts : ∀ n : Fin 64, index64 (char64 (UInt8.ofNat n.val)) = some (UInt8.ofNat n.val) ∧ char64 (UInt8.ofNat n.val) ≠ 61 ∧
    char64 (UInt8.ofNat n.val) ≠ 10 ∧ char64 (UInt8.ofNat n.val) ≠ 13 := by decide +kernel

theorem char64_ok {n : UInt8} (h : n < 64) : index64 (char64 n) = some n ∧ char64 n ≠ 61 ∧ char64 n ≠ 10 ∧ char64 n ≠ 13 := by
  have := char64_facts ⟨n.toNat, h⟩
  simpa using this

theorem g1 (a : UInt8) : a >>> 2 < 64 ∧ a &&& 63 < 64 ∧ (a &&& 3) <<< 4 < 64 ∧ (a &&& 15) <<< 2 < 64 ∧ ((a >>> 2) <<< 2) ||| (a &&& 3) = a ∧
    ((a >>> 4) <<< 4) ||| (a &&& 15) = a ∧ ((a >>> 6) <<< 6) ||| (a &&& 63) = a ∧ ((a &&& 3) <<< 4) >>> 4 = a &&& 3 ∧ ((a &&& 15) <<< 2) >>> 2 = a &&& 15 ∧
    a >>> 4 < 16 ∧ a >>> 6 < 4 := by
  revert a; apply forall_uint8; decide +kernel

theorem g2 : ∀ n : Fin 16, ∀ a : Fin 256, let x := UInt8.ofNat a.val; let k := UInt8.ofNat n.val
    ((x &&& 3) <<< 4) ||| k < 64 ∧ (((x &&& 3) <<< 4) ||| k) >>> 4 = x &&& 3 ∧ (((x &&& 3) <<< 4) ||| k) <<< 4 = k <<< 4 := by decide +kernel

theorem g3 : ∀ n : Fin 4, ∀ a : Fin 256, let x := UInt8.ofNat a.val; let k := UInt8.ofNat n.val
    ((x &&& 15) <<< 2) ||| k < 64 ∧ (((x &&& 15) <<< 2) ||| k) >>> 2 = x &&& 15 ∧ (((x &&& 15) <<< 2) ||| k) <<< 6 = k <<< 6 := by decide +kernel

theorem g2' (a b : UInt8) : ((a &&& 3) <<< 4) ||| (b >>> 4) < 64 ∧ (((a &&& 3) <<< 4) ||| (b >>> 4)) >>> 4 = a &&& 3 ∧
    (((a &&& 3) <<< 4) ||| (b >>> 4)) <<< 4 = (b >>> 4) <<< 4 := by
  have := g2 ⟨(b >>> 4).toNat, (g1 b).2.2.2.2.2.2.2.2.2.1⟩ ⟨a.toNat, a.toNat_lt⟩
  simpa only [UInt8.ofNat_toNat] using this

theorem g3' (a b : UInt8) : ((a &&& 15) <<< 2) ||| (b >>> 6) < 64 ∧ (((a &&& 15) <<< 2) ||| (b >>> 6)) >>> 2 = a &&& 15 ∧
    (((a &&& 15) <<< 2) ||| (b >>> 6)) <<< 6 = (b >>> 6) <<< 6 := by
  have := g3 ⟨(b >>> 6).toNat, (g1 b).2.2.2.2.2.2.2.2.2.2⟩ ⟨a.toNat, a.toNat_lt⟩
  simpa only [UInt8.ofNat_toNat] using this

theorem base64_chars (t : Bytes) : ∀ c ∈ base64Encode t, c ≠ 10 ∧ c ≠ 13 := by
  have h : ∀ n : UInt8, n < 64 → char64 n ≠ 10 ∧ char64 n ≠ 13 := fun n hn => (char64_ok hn).2.2
  induction t using base64Encode.induct with
  | case1 => simp [base64Encode]
  | case2 a =>
    obtain ⟨h1, h2, h3, h4, _⟩ := g1 a
    simp only [base64Encode, List.mem_cons, List.not_mem_nil, or_false, forall_eq_or_imp, forall_eq]
    exact ⟨h _ h1, h _ h3, by decide, by decide⟩
  | case3 a b =>
    obtain ⟨h1, h2, h3, h4, _⟩ := g1 a
    simp only [base64Encode, List.mem_cons, List.not_mem_nil, or_false, forall_eq_or_imp, forall_eq]
    exact ⟨h _ h1, h _ (g2' a b).1, h _ (g1 b).2.2.2.1, by decide⟩
  | case4 a b c rest ih =>
    simp only [base64Encode, List.mem_cons, forall_eq_or_imp]
    exact ⟨h _ (g1 a).1, h _ (g2' a b).1, h _ (g3' b c).1, h _ (g1 c).2.1, ih⟩

theorem base64_groups (t : Bytes) : base64Groups (base64Encode t) = .ok t := by
  induction t using base64Encode.induct with
  | case1 => rfl
  | case2 a =>
    obtain ⟨h1, h2, h3, h4, h5, h6, h7, h8, _⟩ := g1 a
    rw [base64Encode, base64Groups, (char64_ok h1).1, (char64_ok h3).1]
    simp only [and_self, if_true, h8, h5]
  | case3 a b =>
    obtain ⟨h1, h2, h3, h4, h5, h6, h7, h8, h9, _⟩ := g1 a
    obtain ⟨k1, k2, k3, k4, k5, k6, k7, k8, k9, _⟩ := g1 b
    obtain ⟨m1, m2, m3⟩ := g2' a b
    rw [base64Encode, base64Groups, (char64_ok h1).1, (char64_ok m1).1]
    simp only [(char64_ok k4).1, (char64_ok k4).2.1, if_false, if_true, m2, m3, h5, k9, k6]
  | case4 a b c rest ih =>
    obtain ⟨h1, h2, h3, h4, h5, h6, h7, h8, h9, _⟩ := g1 a
    obtain ⟨k1, k2, k3, k4, k5, k6, k7, k8, k9, _⟩ := g1 b
    obtain ⟨l1, l2, l3, l4, l5, l6, l7, l8, l9, _⟩ := g1 c
    obtain ⟨m1, m2, m3⟩ := g2' a b
    obtain ⟨n1, n2, n3⟩ := g3' b c
    rw [base64Encode, base64Groups, (char64_ok h1).1, (char64_ok m1).1]
    simp only [(char64_ok n1).1, (char64_ok n1).2.1, (char64_ok l2).1, (char64_ok l2).2.1, if_false, ih, Res.ok_bind, Res.pure_eq, m2, m3, h5, k6, n2, n3, l7]

theorem base64_roundtrip (t : Bytes) : base64Decode (base64Encode t) = .ok t := by
  unfold base64Decode
  rw [List.filter_eq_self.mpr]
  · exact base64_groups t
  · intro c hc
    simpa using base64_chars t c hc

theorem base64_length (t : Bytes) : (base64Encode t).length = 4 * ((t.length + 2) / 3) := by
  induction t using base64Encode.induct with
  | case1 => rfl
  | case2 a => simp [base64Encode]
  | case3 a b => simp [base64Encode]
  | case4 a b c rest ih => simp only [base64Encode, List.length_cons, ih]; omega

/-! ## CFB -/

theorem zipWith_xor_cancel (s k : Bytes) (h : s.length ≤ k.length) :
    List.zipWith (· ^^^ ·) (List.zipWith (· ^^^ ·) s k) k = s := by
  induction s generalizing k with
  | nil => simp
  | cons a s ih =>
    cases k with
    | nil => simp at h
    | cons b k =>
      simp only [List.zipWith_cons_cons, List.cons.injEq]
      exact ⟨by rw [UInt8.xor_assoc, UInt8.xor_self, UInt8.xor_zero], ih k (by simpa using h)⟩

theorem cfbEncrypt_length (E : Bytes → Bytes) (hE : ∀ b, (E b).length = 16) : ∀ (fuel : Nat) (next src : Bytes), src.length ≤ fuel →
    (cfbEncrypt E fuel next src).length = src.length := by
  intro fuel
  induction fuel with
  | zero => intro next src h; have : src = [] := by simpa using h
            subst this; rfl
  | succ fuel ih =>
    intro next src h
    unfold cfbEncrypt
    split_ifs with h0
    · simp [h0]
    · have hpos : 0 < src.length := List.length_pos_iff.mpr h0
      simp only [List.length_append, List.length_zipWith, List.length_take, hE]
      rw [ih _ _ (by simp; omega)]
      simp; omega

theorem cfbDecrypt_length (E : Bytes → Bytes) (hE : ∀ b, (E b).length = 16) : ∀ (fuel : Nat) (next src : Bytes), src.length ≤ fuel →
    (cfbDecrypt E fuel next src).length = src.length := by
  intro fuel
  induction fuel with
  | zero => intro next src h; have : src = [] := by simpa using h
            subst this; rfl
  | succ fuel ih =>
    intro next src h
    unfold cfbDecrypt
    split_ifs with h0
    · simp [h0]
    · have hpos : 0 < src.length := List.length_pos_iff.mpr h0
      simp only [List.length_append, List.length_zipWith, List.length_take, hE]
      rw [ih _ _ (by simp; omega)]
      simp; omega

theorem cfb_roundtrip (E : Bytes → Bytes) (hE : ∀ b, (E b).length = 16) : ∀ (fuel : Nat) (next src : Bytes), src.length ≤ fuel →
    cfbDecrypt E fuel next (cfbEncrypt E fuel next src) = src := by
  intro fuel
  induction fuel with
  | zero => intro next src h; have : src = [] := by simpa using h
            subst this; rfl
  | succ fuel ih =>
    intro next src h
    by_cases h0 : src = []
    · subst h0; rfl
    have hpos : 0 < src.length := List.length_pos_iff.mpr h0
    have hlen := cfbEncrypt_length E hE (fuel + 1) next src h
    have hne : cfbEncrypt E (fuel + 1) next src ≠ [] := by
      intro e; rw [e] at hlen; simp at hlen; omega
    rw [cfbDecrypt, if_neg hne]
    rw [cfbEncrypt, if_neg h0]
    dsimp only
    generalize hd : List.zipWith (· ^^^ ·) (src.take 16) (E next) = dst
    have hdl : dst.length = min 16 src.length := by
      rw [← hd, List.length_zipWith, List.length_take, hE]; omega
    by_cases hlong : 16 ≤ src.length
    · have ht : (dst ++ cfbEncrypt E fuel dst (src.drop 16)).take 16 = dst := by
        rw [List.take_append_of_le_length (by omega), List.take_of_length_le (by omega)]
      have htd : (dst ++ cfbEncrypt E fuel dst (src.drop 16)).drop 16 = cfbEncrypt E fuel dst (src.drop 16) := by
        rw [List.drop_append_of_le_length (by omega), List.drop_of_length_le (by omega), List.nil_append]
      rw [ht, htd, ih _ _ (by simp; omega), ← hd, zipWith_xor_cancel _ _ (by rw [List.length_take, hE]; omega), List.take_append_drop]
    · have hdrop : src.drop 16 = [] := List.drop_of_length_le (by omega)
      have he : cfbEncrypt E fuel dst [] = [] := by cases fuel <;> rfl
      have hde : ∀ n, cfbDecrypt E fuel n [] = [] := by intro n; cases fuel <;> rfl
      rw [hdrop, he, List.append_nil, List.take_of_length_le (by omega : dst.length ≤ 16), List.drop_of_length_le (by omega : dst.length ≤ 16), hde, List.append_nil,
        ← hd, zipWith_xor_cancel _ _ (by rw [List.length_take, hE]; omega), List.take_of_length_le (by omega)]

/-! ## the properties -/

/-- C61: for every cipher with 16-byte blocks, every 16 random bytes and every text, `Encrypt` succeeds, its result has the IV followed by
`4*ceil(n/3)` bytes, and `Decrypt` of it is the text. -/
theorem C61_roundtrip (ciph : BlockCipher) (h16 : ciph.BlockSize = 16) (iv text : Bytes) (hiv : iv.length = 16) :
    ∃ c, Encrypt ciph (some iv) text = .ok c ∧ c.take 16 = iv ∧ c.length = 16 + 4 * ((text.length + 2) / 3) ∧ (Decrypt ciph c).1 = .ok text := by
  have hE : ∀ b, (ciph.Encrypt b).length = 16 := fun b => by rw [ciph.Encrypt_length, h16]
  have hl := cfbEncrypt_length ciph.Encrypt hE _ iv (base64Encode text) (le_refl _)
  refine ⟨_, by rw [Encrypt, if_neg (by omega)], ?_, ?_, ?_⟩
  · rw [List.take_append_of_le_length (by omega), List.take_of_length_le (by omega)]
  · rw [List.length_append, hl, base64_length, hiv]
  · unfold Decrypt
    rw [if_neg (by simp; omega), if_neg (by omega)]
    dsimp only
    rw [List.take_append_of_le_length (by omega), List.take_of_length_le (by omega : iv.length ≤ 16), List.drop_append_of_le_length (by omega),
      List.drop_of_length_le (by omega : iv.length ≤ 16), List.nil_append, hl, cfb_roundtrip _ hE _ _ _ (le_refl _), base64_roundtrip]

/-- A toy cipher (adds the position to each byte), for examples. -/
def toyCipher : BlockCipher where
  BlockSize := 16
  Encrypt b := (List.range 16).map fun i => b.getD i 0 + UInt8.ofNat i + 77
  Encrypt_length b := by simp

/-- non-vacuity: a text of several blocks -/
example : ∃ c, Encrypt toyCipher (some (List.replicate 16 9)) b!"hello, this is a longer secret" = .ok c ∧ c.length = 56 ∧
    (Decrypt toyCipher c).1 = .ok b!"hello, this is a longer secret" := by
  refine ⟨_, rfl, ?_⟩
  decide +kernel

/-- C61: a failing random source gives an error, a cipher with another block size (DES) panics. -/
theorem C61_failures (ciph : BlockCipher) (text : Bytes) :
    (Encrypt ciph none text).isErr ∧ (ciph.BlockSize ≠ 16 → ∀ iv, Encrypt ciph (some iv) text = .panic) := by
  constructor
  · rfl
  · intro h iv
    unfold Encrypt; dsimp only; rw [if_pos h]

/-- C62: `Decrypt` reports an error on ciphertexts shorter than 16 bytes and never panics (16-byte blocks). -/
theorem C62_total (ciph : BlockCipher) (h16 : ciph.BlockSize = 16) (c : Bytes) :
    (Decrypt ciph c).1 ≠ .panic ∧ (c.length < 16 → (Decrypt ciph c).1 = .err "ciphertext too short") := by
  have hg : ∀ s, base64Groups s ≠ .panic := by
    intro s
    induction s using base64Groups.induct with
    | case1 => simp [base64Groups]
    | case2 => rw [base64Groups]; simp_all
    | case3 a b d rest x y hx hy h =>
      rw [base64Groups]
      simp only [hx, hy, if_true, if_neg h]
      simp
    | case4 => rw [base64Groups]; simp_all
    | case5 => rw [base64Groups]; simp_all
    | case6 => rw [base64Groups]; simp_all
    | case7 => rw [base64Groups]; simp_all
    | case8 a b c d rest x y hx hy hc z hz hd w hw ih =>
      rw [base64Groups]
      simp only [hx, hy, hc, hz, hd, hw, if_false]
      intro h
      rw [Res.bind_eq_panic] at h
      rcases h with h | ⟨r, _, h⟩
      · exact ih h
      · cases h
    | case9 => rw [base64Groups]; simp_all
    | case10 => rw [base64Groups] <;> simp_all
  constructor
  · unfold Decrypt
    split_ifs with h h'
    · simp
    · exact absurd h16 h'
    · dsimp only; exact hg _
  · intro h
    unfold Decrypt; rw [if_pos h]

/-- non-vacuity -/
example : (Decrypt toyCipher (List.replicate 40 7)).1.isErr ∧ (Decrypt toyCipher []).1 = .err "ciphertext too short" := by decide +kernel

/-- C62 violation: `Decrypt` overwrites the caller's ciphertext, and a second `Decrypt` of the same slice gives another result. -/
theorem C62_violation : ∃ (ciph : BlockCipher) (c : Bytes), ciph.BlockSize = 16 ∧ (Decrypt ciph c).1 = .ok b!"secret" ∧ (Decrypt ciph c).2 ≠ c ∧
    (Decrypt ciph (Decrypt ciph c).2).1 ≠ .ok b!"secret" := by
  refine ⟨toyCipher, List.replicate 16 9 ++ cfbEncrypt toyCipher.Encrypt 8 (List.replicate 16 9) (base64Encode b!"secret"), rfl, ?_⟩
  decide +kernel

/-- C62: what `Decrypt` leaves in the caller's slice: too short a ciphertext is untouched; otherwise the IV is kept and everything after it is replaced by the
base64 text, so for a ciphertext made by `Encrypt` the slice holds the encoded plaintext afterwards. -/
theorem C62_memory (ciph : BlockCipher) (h16 : ciph.BlockSize = 16) :
    (∀ c : Bytes, c.length < 16 → (Decrypt ciph c).2 = c) ∧
    (∀ c : Bytes, 16 ≤ c.length → (Decrypt ciph c).2.length = c.length ∧ (Decrypt ciph c).2.take 16 = c.take 16) ∧
    (∀ iv text c, iv.length = 16 → Encrypt ciph (some iv) text = .ok c → (Decrypt ciph c).2 = iv ++ base64Encode text) := by
  have hE : ∀ b, (ciph.Encrypt b).length = 16 := fun b => by rw [ciph.Encrypt_length, h16]
  refine ⟨?_, ?_, ?_⟩
  · intro c h; unfold Decrypt; rw [if_pos h]
  · intro c h
    unfold Decrypt
    rw [if_neg (by omega), if_neg (by omega)]
    dsimp only
    have hl : (c.take 16).length = 16 := by rw [List.length_take]; omega
    constructor
    · rw [List.length_append, cfbDecrypt_length _ hE _ _ _ (le_refl _), hl, List.length_drop]; omega
    · rw [List.take_append_of_le_length (by omega), List.take_of_length_le (by omega)]
  · intro iv text c hiv hc
    rw [Encrypt, if_neg (by omega), Res.ok.injEq] at hc
    subst hc
    have hl := cfbEncrypt_length ciph.Encrypt hE _ iv (base64Encode text) (le_refl _)
    unfold Decrypt
    rw [if_neg (by simp; omega), if_neg (by omega)]
    dsimp only
    rw [List.take_append_of_le_length (by omega), List.take_of_length_le (by omega : iv.length ≤ 16), List.drop_append_of_le_length (by omega),
      List.drop_of_length_le (by omega : iv.length ≤ 16), List.nil_append, hl, cfb_roundtrip _ hE _ _ _ (le_refl _)]

/-- non-vacuity: see `C62_violation`, whose ciphertext is made by `Encrypt` -/
example : Encrypt toyCipher (some (List.replicate 16 9)) b!"secret" =
    .ok (List.replicate 16 9 ++ cfbEncrypt toyCipher.Encrypt 8 (List.replicate 16 9) (base64Encode b!"secret")) := by decide +kernel

/-! ## C63 -/

/-- C63: composition and sizes. -/
theorem C63_hashes (H : HashFns) (b : Bytes) :
    Sha256d H b = Sha256 H (Sha256 H b) ∧ Hash160 H b = Ripemd160 H (Sha256 H b) ∧
    (Sha256 H b).length = 32 ∧ (Sha256d H b).length = 32 ∧ (Ripemd160 H b).length = 20 ∧ (Hash160 H b).length = 20 :=
  ⟨rfl, rfl, H.sha256_length _, H.sha256_length _, H.ripemd160_length _, H.ripemd160_length _⟩

/-- non-vacuity: there are such hash functions -/
example : (Sha256d toyH b!"abc").length = 32 := by decide +kernel

end Verif.Props
