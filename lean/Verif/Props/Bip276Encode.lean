import Verif.Props.Bip276
/-!
# Property C94: what `EncodeBIP276` writes, and what it refuses
-/
namespace Verif.Props
open Verif Verif.Spec

/-- The BIP276 text of a payload: prefix, colon, network and version as two lower-case hex digits each, the data in hex, and the first four bytes of the double SHA256 of all that, in hex. -/
def bip276Text (H : HashFns) (pfx : Bytes) (network version : UInt8) (data : Bytes) : Bytes :=
  let payload := pfx ++ b!":" ++ hexEncode [network] ++ hexEncode [version] ++ hexEncode data
  payload ++ hexEncode ((H.sha256 (H.sha256 payload)).take 4)

theorem fmt2x_byte (n : UInt8) : fmt2x (n.toNat : Int) = hexEncode [n] := by
  revert n; apply forall_uint8; decide +kernel

/-- C94: network and version are bytes other than zero: the text is the BIP276 text. -/
theorem C94_text (H : HashFns) (pfx : Bytes) (network version : UInt8) (data : Bytes) (hn : network ≠ 0) (hv : version ≠ 0) :
    EncodeBIP276 H pfx (network.toNat : Int) (version.toNat : Int) data = bip276Text H pfx network version data := by
  have h1 := network.toNat_lt
  have h2 := version.toNat_lt
  have e1 : network.toNat ≠ 0 := fun h => hn (UInt8.toNat_inj.mp h)
  have e2 : version.toNat ≠ 0 := fun h => hv (UInt8.toNat_inj.mp h)
  rw [encode_eq H pfx _ _ data (by omega) (by omega)]
  unfold bip276Text payload276
  dsimp only
  rw [fmt2x_byte, fmt2x_byte]

theorem fmt2x_two (n : Int) : 2 ≤ (fmt2x n).length := by
  unfold fmt2x
  dsimp only
  split_ifs <;> simp only [List.length_cons, List.length_append, List.length_replicate] <;> omega

theorem encode_long (H : HashFns) (pfx : Bytes) (network version : Int) (data : Bytes) (h : ¬ (version = 0 ∨ version > 255 ∨ network = 0 ∨ network > 255)) :
    12 < (EncodeBIP276 H pfx network version data).length := by
  unfold EncodeBIP276
  rw [if_neg h]
  unfold createBIP276 Sha256d Sha256
  dsimp only
  have h1 := fmt2x_two network
  have h2 := fmt2x_two version
  simp only [List.length_append, hexEncode_length, List.length_singleton, checksum_length]
  omega

/-- C94: the text `ERROR` is returned exactly when network or version is zero or above 255. -/
theorem C94_refused_iff (H : HashFns) (pfx : Bytes) (network version : Int) (data : Bytes) :
    EncodeBIP276 H pfx network version data = b!"ERROR" ↔ network = 0 ∨ network > 255 ∨ version = 0 ∨ version > 255 := by
  constructor
  · intro h
    by_contra hc
    have := encode_long H pfx network version data (by omega)
    rw [h] at this
    exact absurd this (by decide)
  · intro h
    unfold EncodeBIP276
    rw [if_pos (by omega)]

/-- Splitting at the last colon. -/
theorem last_colon : ∀ (a b x y : Bytes), (58 : UInt8) ∉ x → (58 : UInt8) ∉ y → a ++ 58 :: x = b ++ 58 :: y → a = b ∧ x = y := by
  intro a
  induction a with
  | nil =>
    intro b x y hx hy h
    cases b with
    | nil => simp at h; exact ⟨rfl, h⟩
    | cons c b =>
      simp only [List.nil_append, List.cons_append, List.cons.injEq] at h
      exact absurd (by rw [h.2]; simp) hx
  | cons c a ih =>
    intro b x y hx hy h
    cases b with
    | nil =>
      simp only [List.nil_append, List.cons_append, List.cons.injEq] at h
      exact absurd (by rw [← h.2]; simp) hy
    | cons c' b =>
      simp only [List.cons_append, List.cons.injEq] at h
      obtain ⟨r1, r2⟩ := ih b x y hx hy h.2
      exact ⟨by rw [h.1, r1], r2⟩

theorem no_colon_hex (b : Bytes) : (58 : UInt8) ∉ hexEncode b := fun h => absurd (hexDigits_encode b _ h) (by decide)

/-- C94: the text determines prefix, network, version and data: different arguments never give one text. -/
theorem C94_injective (H : HashFns) (pfx pfx' : Bytes) (network version network' version' : UInt8) (data data' : Bytes)
    (h : bip276Text H pfx network version data = bip276Text H pfx' network' version' data') :
    pfx = pfx' ∧ network = network' ∧ version = version' ∧ data = data' := by
  unfold bip276Text at h
  dsimp only at h
  generalize hc : hexEncode ((H.sha256 (H.sha256 (pfx ++ b!":" ++ hexEncode [network] ++ hexEncode [version] ++ hexEncode data))).take 4) = c at h
  generalize hc' : hexEncode ((H.sha256 (H.sha256 (pfx' ++ b!":" ++ hexEncode [network'] ++ hexEncode [version'] ++ hexEncode data'))).take 4) = c' at h
  have l : c.length = 8 := by rw [← hc, hexEncode_length, checksum_length]
  have l' : c'.length = 8 := by rw [← hc', hexEncode_length, checksum_length]
  have n : (58 : UInt8) ∉ c := by rw [← hc]; exact no_colon_hex _
  have n' : (58 : UInt8) ∉ c' := by rw [← hc']; exact no_colon_hex _
  have e : pfx ++ 58 :: (hexEncode [network] ++ (hexEncode [version] ++ (hexEncode data ++ c))) =
      pfx' ++ 58 :: (hexEncode [network'] ++ (hexEncode [version'] ++ (hexEncode data' ++ c'))) := by
    simpa [List.append_assoc, show b!":" = [58] from rfl] using h
  obtain ⟨e1, e2⟩ := last_colon _ _ _ _ (by simp only [List.mem_append, not_or]; exact ⟨no_colon_hex _, no_colon_hex _, no_colon_hex _, n⟩)
    (by simp only [List.mem_append, not_or]; exact ⟨no_colon_hex _, no_colon_hex _, no_colon_hex _, n'⟩) e
  obtain ⟨e3, e4⟩ := List.append_inj e2 (by rw [hexEncode_length, hexEncode_length]; rfl)
  obtain ⟨e5, e6⟩ := List.append_inj e4 (by rw [hexEncode_length, hexEncode_length]; rfl)
  obtain ⟨e7, _⟩ := List.append_inj' e6 (by omega)
  have i1 := hexEncode_inj e3
  have i2 := hexEncode_inj e5
  simp only [List.cons.injEq, and_true] at i1 i2
  exact ⟨e1, i1, i2, hexEncode_inj e7⟩

theorem fmt2x_minus (n : Int) (h : n < 0) : (45 : UInt8) ∈ fmt2x n := by
  unfold fmt2x
  dsimp only
  rw [if_pos h]; simp

/-- Hex digits of any number. -/
theorem hexChar_ne_colon : ∀ d : Fin 16, hexChar (UInt8.ofNat d.val) ≠ 58 := by decide +kernel

theorem fmt2x_no_colon (n : Int) : (58 : UInt8) ∉ fmt2x n := by
  unfold fmt2x
  dsimp only
  have : (58 : UInt8) ∉ List.replicate (2 - ((digitsLE 16 (n.natAbs.log2 + 1) n.natAbs).reverse.map (fun d => hexChar (UInt8.ofNat d))).length) (48 : UInt8) ++
      (digitsLE 16 (n.natAbs.log2 + 1) n.natAbs).reverse.map (fun d => hexChar (UInt8.ofNat d)) := by
    intro h
    rcases List.mem_append.mp h with h | h
    · exact absurd (List.eq_of_mem_replicate h) (by decide)
    · obtain ⟨d, hm, hd⟩ := List.mem_map.mp h
      have hlt := (digitsLE_spec 16 (by decide) _ _ (digitsLE_log 16 (by decide) n.natAbs)).2.1 d (by simpa using hm)
      exact hexChar_ne_colon ⟨d, hlt⟩ hd
  split_ifs
  · rw [List.mem_cons, not_or]; exact ⟨by decide, this⟩
  · exact this

/-- C94 (violated): a negative network or version is not refused: a text with a minus sign is written, on which `DecodeBIP276` panics. -/
theorem C94_negative_violated (H : HashFns) (pfx : Bytes) (network version : Int) (data : Bytes) (h : network < 0 ∨ version < 0)
    (hn : network ≠ 0 ∧ network ≤ 255) (hv : version ≠ 0 ∧ version ≤ 255) :
    EncodeBIP276 H pfx network version data ≠ b!"ERROR" ∧ (45 : UInt8) ∈ EncodeBIP276 H pfx network version data ∧
      DecodeBIP276 H (EncodeBIP276 H pfx network version data) = .panic := by
  have hr : ¬ (version = 0 ∨ version > 255 ∨ network = 0 ∨ network > 255) := by omega
  refine ⟨fun e => ?_, ?_, ?_⟩
  · have := (C94_refused_iff H pfx network version data).mp e
    omega
  · unfold EncodeBIP276
    rw [if_neg hr]
    unfold createBIP276
    simp only [List.mem_append]
    rcases h with h | h
    · exact Or.inl (Or.inl (Or.inl (Or.inr (fmt2x_minus _ h))))
    · exact Or.inl (Or.inl (Or.inr (fmt2x_minus _ h)))
  · unfold DecodeBIP276
    rcases hm : matchBIP276 [] (EncodeBIP276 H pfx network version data) with _ | ⟨p, d1, d2, hx, cs⟩
    · rfl
    · exfalso
      obtain ⟨e, _, _, _, _, _, _, h7, h8⟩ := (match_iff _ _ _ _ _ _).mp hm
      unfold EncodeBIP276 at e
      rw [if_neg hr] at e
      unfold createBIP276 at e
      dsimp only at e
      have e' : pfx ++ 58 :: (fmt2x network ++ (fmt2x version ++ (hexEncode data ++
          hexEncode ((Sha256d H (pfx ++ [58] ++ fmt2x network ++ fmt2x version ++ hexEncode data)).take 4)))) = p ++ 58 :: (d1 ++ d2 ++ (hx ++ cs)) := by
        simpa [List.append_assoc] using e
      have tl : (58 : UInt8) ∉ d1 ++ d2 ++ (hx ++ cs) := by
        intro hc
        rcases List.mem_append.mp hc with hc | hc
        · exact absurd (h7 _ hc) (by decide)
        · exact absurd (h8 _ hc) (by decide)
      obtain ⟨_, e2⟩ := last_colon _ _ _ _ (by
        simp only [List.mem_append, not_or]
        exact ⟨fmt2x_no_colon _, fmt2x_no_colon _, no_colon_hex _, no_colon_hex _⟩) tl e'
      have hmem : (45 : UInt8) ∈ d1 ++ d2 ++ (hx ++ cs) := by
        rw [← e2]
        simp only [List.mem_append]
        rcases h with h | h
        · exact Or.inl (fmt2x_minus _ h)
        · exact Or.inr (Or.inl (fmt2x_minus _ h))
      rcases List.mem_append.mp hmem with hc | hc
      · exact absurd (h7 _ hc) (by decide)
      · exact absurd (h8 _ hc) (by decide)

example : EncodeBIP276 toyH b!"bitcoin-script" 1 255 [0xab] = b!"bitcoin-script:01ffab62697463" := by decide +kernel
example : EncodeBIP276 toyH b!"p" 1 (-5) [0xab] = b!"p:01-05ab703a3031" := by decide +kernel
example : EncodeBIP276 toyH b!"p" 256 1 [] = b!"ERROR" := by decide +kernel

end Verif.Props
