import Verif.Props.Redeem
import Verif.Props.Address
/-!
# C72: the address of a redeem script
-/
namespace Verif.Props
open Verif Spec Transaction

/-- The 25 bytes behind the address of a redeem script: version 5, the hash of the script, the checksum of those 21 bytes. -/
def p2shBytes (H : HashFns) (script : Bytes) : Bytes :=
  let body := 0x05 :: H.ripemd160 (H.sha256 script)
  body ++ (H.sha256 (H.sha256 body)).take 4

theorem p2shBytes_length (H : HashFns) (s : Bytes) : (p2shBytes H s).length = 25 := by
  unfold p2shBytes
  simp only [List.length_append, checksum_length, List.length_cons, H.ripemd160_length]

theorem getAddress_eq (H : HashFns) (rs : RedeemScript) : rs.GetAddress H = base58Encode (p2shBytes H (GetRedeemScript rs).1) := rfl

/-- C72 (a): the address is the canonical base58 text of version 5, hash and checksum, and begins with '3'. -/
theorem C72_text (H : HashFns) (rs : RedeemScript) :
    IsBase58Text (rs.GetAddress H) (p2shBytes H (GetRedeemScript rs).1) ∧ (rs.GetAddress H).head? = some 51 ∧ (rs.GetAddress H).length = 34 := by
  refine ⟨(base58Encode_text _ _).mpr (getAddress_eq H rs), ?_⟩
  rw [getAddress_eq]
  have hlen := p2shBytes_length H (GetRedeemScript rs).1
  obtain ⟨tl, hbt⟩ : ∃ tl, p2shBytes H (GetRedeemScript rs).1 = 5 :: tl := ⟨_, rfl⟩
  rw [hbt] at hlen ⊢
  have htll : tl.length = 24 := by simpa using hlen
  have hv : beNat (5 :: tl) = 5 * 256 ^ 24 + beNat tl := by rw [beNat_cons, htll]; rfl
  have hlt := beNat_lt tl
  rw [htll] at hlt
  generalize hb : beNat (5 :: tl) = n at hv
  have hlow : 58 ^ 33 ≤ n := by
    rw [hv]; have : (58:Nat) ^ 33 ≤ 5 * 256 ^ 24 := by norm_num
    omega
  have hhigh : n < 58 ^ (33 + 1) := by
    rw [hv]; have : (5:Nat) * 256 ^ 24 + 256 ^ 24 ≤ 58 ^ 34 := by norm_num
    omega
  have hfuel : 33 < n.log2 + 1 := by
    have : 33 ≤ n.log2 := by
      rw [Nat.le_log2 (by omega)]
      have : (2:Nat) ^ 33 ≤ 58 ^ 33 := by norm_num
      omega
    omega
  have hlast := digitsLE_last 58 (by norm_num) 33 n hlow hhigh _ hfuel
  have htop : n / 58 ^ 33 = 2 := by
    have h1 : 2 ≤ n / 58 ^ 33 := by
      rw [Nat.le_div_iff_mul_le (by norm_num), hv]
      have : (2:Nat) * 58 ^ 33 ≤ 5 * 256 ^ 24 := by norm_num
      omega
    have h2 : n / 58 ^ 33 < 3 := by
      rw [Nat.div_lt_iff_lt_mul (by norm_num), hv]
      have : (5:Nat) * 256 ^ 24 + 256 ^ 24 ≤ 3 * 58 ^ 33 := by norm_num
      omega
    omega
  have hz : (5 :: tl).takeWhile (· == (0:UInt8)) = [] := by rw [List.takeWhile_cons]; rfl
  constructor
  · unfold base58Encode
    simp only [hz, List.map_nil, List.nil_append, List.map_reverse, List.head?_reverse, List.getLast?_map, hb]
    rw [hlast, htop]; decide
  · have hl2 := digits_full 58 (by norm_num) n
    obtain ⟨d1, d2, d3⟩ := hl2
    have hcount : (digitsLE 58 (n.log2 + 1) n).length = 34 := digitsLE_length (by norm_num) 33 n hlow hhigh _ hfuel
    unfold base58Encode
    simp only [hz, List.map_nil, List.nil_append, List.length_map, List.length_reverse, hb, hcount]

/-- C72 (b): equal addresses mean equal redeem scripts, unless two different scripts collide under HASH160. -/
theorem C72_commits (H : HashFns) (a b : RedeemScript) (h : a.GetAddress H = b.GetAddress H) :
    (GetRedeemScript a).1 = (GetRedeemScript b).1 ∨
    ((GetRedeemScript a).1 ≠ (GetRedeemScript b).1 ∧ H.ripemd160 (H.sha256 (GetRedeemScript a).1) = H.ripemd160 (H.sha256 (GetRedeemScript b).1)) := by
  by_cases e : (GetRedeemScript a).1 = (GetRedeemScript b).1
  · exact .inl e
  · refine .inr ⟨e, ?_⟩
    rw [getAddress_eq, getAddress_eq] at h
    have h := base58Encode_inj h
    unfold p2shBytes at h
    have := (List.append_inj h (by simp [H.ripemd160_length])).1
    simpa using this

/-- C72 (c), violation: the library's own P2SH addresses are refused everywhere in it: by the validator, by the address constructor, by the script constructor and by
`PayTo`, for every redeem script. -/
theorem C72_violation (H : HashFns) (rs : RedeemScript) (tx : Transaction) (sats : UInt64) :
    ValidateAddress H (rs.GetAddress H) = .err "not version 0 or 6f" ∧ Address.NewFromString (rs.GetAddress H) = .err "Address is not supported" ∧
    (NewP2PKHFromAddress (rs.GetAddress H)).isErr ∧ (tx.PayTo (rs.GetAddress H) sats).isErr := by
  have hlen := p2shBytes_length H (GetRedeemScript rs).1
  obtain ⟨tl, hbt⟩ : ∃ tl, p2shBytes H (GetRedeemScript rs).1 = 5 :: tl := ⟨_, rfl⟩
  have hval : value58 0 (rs.GetAddress H) = some (beNat (p2shBytes H (GetRedeemScript rs).1)) := value58_base58Encode _
  have hnew : Address.NewFromString (rs.GetAddress H) = .err "Address is not supported" := by
    have h5 : (p2shBytes H (GetRedeemScript rs).1).getD 0 0 = 5 := by rw [hbt]; rfl
    simp only [Address.NewFromString, addressToPubKeyHashStr, getAddress_eq, base58_roundtrip, hlen, h5]
    rfl
  refine ⟨?_, hnew, ?_, ?_⟩
  · have hnp : ¬ (b!"bitcoin-script:").isPrefixOf (rs.GetAddress H) = true := by
      intro h
      obtain ⟨t, ht⟩ := List.isPrefixOf_iff_prefix.mp h
      rw [← ht, value58_append] at hval
      have : value58 0 b!"bitcoin-script:" = none := by decide +kernel
      rw [this] at hval; simp at hval
    unfold ValidateAddress
    rw [if_neg hnp]
    unfold validA58
    rw [(set58_ok_iff _ _).mpr ⟨hlen, hval⟩, Res.ok_bind, hbt]
    rfl
  · unfold NewP2PKHFromAddress; rw [hnew]; rfl
  · unfold Transaction.PayTo Output.NewP2PKHFromAddress NewP2PKHFromAddress; rw [hnew]; rfl

example : RedeemScript.GetAddress toyH ⟨2, [List.replicate 33 2, List.replicate 33 3], []⟩ ≠ RedeemScript.GetAddress toyH ⟨1, [List.replicate 33 2, List.replicate 33 3], []⟩ := by decide +kernel

end Verif.Props
