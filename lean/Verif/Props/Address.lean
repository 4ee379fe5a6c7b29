import Verif.Lemmas.Base58
import Verif.Spec.Base58
import Verif.Props.Script
import Verif.Props.Redeem
import Verif.Model.Tx
/-!
# Properties C22 - C27: addresses
-/
namespace Verif.Props
open Verif Verif.Spec Verif.Op

/-! ## the spec's numerals are what the code computes -/

theorem numeral_iff (s : Bytes) (v : Nat) : IsNumeral58 s v ↔ value58 0 s = some v := by
  have hfold : ∀ ds : List Nat, ds.foldl (fun acc d => acc * 58 + d) 0 = digVal 58 ds.reverse := by
    intro ds
    induction ds using List.reverseRecOn with
    | nil => rfl
    | append_singleton ds d ih => rw [List.foldl_append, ih, List.reverse_append]; simp [digVal]; ring
  have hchar : ∀ d, alphabet.getD d 0 = char58 d := fun d => rfl
  constructor
  · rintro ⟨ds, h1, rfl, rfl⟩
    have := value58_digits ds.reverse (by simpa using h1)
    rw [List.reverse_reverse] at this
    rw [hfold]; exact this
  · intro h
    obtain ⟨ds, h1, h2, h3⟩ := value58_some h
    exact ⟨ds.reverse, by simpa using h1, h2, by rw [hfold, List.reverse_reverse, h3]⟩

theorem head_dropWhile_ne (z : UInt8) (b : Bytes) : (b.dropWhile (· == z)).head? ≠ some z := by
  intro h
  exact dropWhile_head z b z h rfl

/-- `base58.Encode` produces the canonical text, and only it is canonical. -/
theorem base58Encode_text (s b : Bytes) : IsBase58Text s b ↔ s = base58Encode b := by
  have hself : IsBase58Text (base58Encode b) b := by
    have hv := value58_base58Encode b
    refine ⟨(b.takeWhile (· == 0)).length, (base58Encode b).dropWhile (· == 49), b.dropWhile (· == 0), split_zeros 0 b, head_dropWhile_ne 0 b, ?_,
      head_dropWhile_ne 49 _, ?_⟩
    · rw [← encode_takeWhile]; exact split_zeros 49 _
    · rw [numeral_iff]
      rw [split_zeros 49 (base58Encode b), value58_ones] at hv
      rw [hv]
      conv_lhs => rw [split_zeros 0 b]
      rw [beNat_zeros]
  constructor
  · rintro ⟨k, t, c, rfl, hc, rfl, ht, hn⟩
    have hn' := (numeral_iff _ _).mp hn
    have hv : value58 0 (List.replicate k 49 ++ t) = some (beNat c) := by rw [value58_ones, hn']
    rw [← base58_roundtrip' hv]
    congr 1
    unfold base58Decode
    rw [hv]
    simp only
    rw [List.map_const', takeWhile_replicate 49 k t ht, bigBytes_beNat]
    congr 1
    cases c with
    | nil => rfl
    | cons x xs =>
      have : (x == 0) = false := by simpa using hc
      rw [List.dropWhile_cons, this]; rfl
  · rintro rfl; exact hself

/-- The address text of a version byte and a hash. -/
theorem checksum_eq (H : HashFns) (b : Bytes) : checksum H b = (H.sha256 (H.sha256 b)).take 4 := rfl

theorem checksum_length (H : HashFns) (b : Bytes) : ((H.sha256 (H.sha256 b)).take 4).length = 4 := by
  simp [H.sha256_length]

/-! ## C22 -/

/-- C22 (a): the address made from a 20-byte hash is accepted by `NewFromString`, which returns the same string and hash. -/
theorem C22_address_roundtrip (H : HashFns) (hash : Bytes) (mainnet : Bool) (hl : hash.length = 20) :
    Address.NewFromString (Address.NewFromPublicKeyHash H hash mainnet).AddressString = .ok (Address.NewFromPublicKeyHash H hash mainnet) ∧
    (Address.NewFromPublicKeyHash H hash mainnet).PublicKeyHash = hexEncode hash := by
  refine ⟨?_, rfl⟩
  have key : ∀ v : UInt8, v = 0 ∨ v = 0x6f → addressToPubKeyHashStr (Base58EncodeMissingChecksum H (v :: hash)) = .ok (hexEncode hash) := by
    intro v hv
    have hcs := checksum_length H (v :: hash)
    simp only [addressToPubKeyHashStr, Base58EncodeMissingChecksum, checksum_eq, base58_roundtrip]
    have hlen : (v :: hash ++ (H.sha256 (H.sha256 (v :: hash))).take 4).length = 25 := by
      rw [List.length_append, hcs]; simp [hl]
    rw [if_neg (by omega), hlen]
    have htake : ((v :: hash ++ (H.sha256 (H.sha256 (v :: hash))).take 4).take (25 - 4)).drop 1 = hash := by
      rw [List.take_append_of_le_length (by simp [hl]), List.take_of_length_le (by simp [hl])]; rfl
    rw [htake]
    rcases hv with rfl | rfl
    · exact if_pos rfl
    · rw [if_neg (by simp)]; exact if_pos rfl
  have : Address.NewFromPublicKeyHash H hash mainnet = ⟨Base58EncodeMissingChecksum H ((if mainnet = false then 111 else 0) :: hash), hexEncode hash⟩ := rfl
  rw [this]
  unfold Address.NewFromString
  rw [key _ (by cases mainnet <;> simp)]
  rfl

/-- C22 (b): different hashes or networks give different address strings. -/
theorem C22_address_injective (H : HashFns) (h1 h2 : Bytes) (n1 n2 : Bool) (hl1 : h1.length = 20) (hl2 : h2.length = 20)
    (h : (Address.NewFromPublicKeyHash H h1 n1).AddressString = (Address.NewFromPublicKeyHash H h2 n2).AddressString) : h1 = h2 ∧ n1 = n2 := by
  have := base58Encode_inj h
  have := (List.append_inj this (by simp [hl1, hl2])).1
  simp only [List.cons.injEq] at this
  refine ⟨this.2, ?_⟩
  have h' := this.1
  revert h'
  cases n1 <;> cases n2 <;> simp

/-- C22 (c): the address string is the canonical base58 text of version, hash and checksum. -/
theorem C22_address_text (H : HashFns) (hash : Bytes) (mainnet : Bool) (hl : hash.length = 20) :
    ∃ a, AddressBytes H.sha256 (if mainnet then 0x00 else 0x6f) hash a ∧ IsBase58Text (Address.NewFromPublicKeyHash H hash mainnet).AddressString a := by
  refine ⟨_, ⟨by cases mainnet <;> simp, hl, rfl⟩, ?_⟩
  rw [base58Encode_text]
  cases mainnet <;> rfl

example : (Address.NewFromPublicKeyHash toyH (List.replicate 20 7) true).AddressString.length = 33 := by decide +kernel

/-! ## C24 -/

/-- The BIP276 prefix, which `ValidateAddress` treats separately. -/
def bip276Prefix : Bytes := b!"bitcoin-script:"

/-- C24 (a): a string without the BIP276 prefix is accepted exactly when it is a base58 numeral whose value is that of 25 well-formed address bytes;
otherwise it is refused with an error: no panic, and never the value false. -/
theorem C24_validate_iff (H : HashFns) (s : Bytes) (hp : ¬ bip276Prefix <+: s) :
    (ValidateAddress H s = .ok true ↔ ∃ version hash a, AddressBytes H.sha256 version hash a ∧ IsNumeral58 s (beNat a)) ∧
    ValidateAddress H s ≠ .panic ∧ ValidateAddress H s ≠ .ok false := by
  have hv : ValidateAddress H s = validA58 H s := by
    unfold ValidateAddress
    rw [if_neg]
    intro h
    exact hp (by simpa [List.isPrefixOf_iff_prefix, bip276Prefix] using h)
  rw [hv]
  unfold validA58
  refine ⟨?_, ?_, ?_⟩
  · constructor
    · intro h
      obtain ⟨a, ha, h⟩ := Res.bind_eq_ok.mp h
      split at h
      · simp at h
      · rename_i hver
        split at h
        · simp at h
        · rename_i hcs
          obtain ⟨hl, hval⟩ := (set58_ok_iff s a).mp ha
          simp only [ne_eq, not_not, embeddedChecksum, computeChecksum] at hcs
          obtain ⟨v, r, rfl⟩ : ∃ v r, a = v :: r := by
            cases a with
            | nil => simp at hl
            | cons v r => exact ⟨v, r, rfl⟩
          simp only [List.getD_cons_zero] at hver
          refine ⟨v, r.take 20, v :: r, ⟨by by_cases h0 : v = 0 <;> simp_all, by simp at hl; simp [hl], ?_⟩, (numeral_iff _ _).mpr hval⟩
          have e : (v :: r).take 21 = v :: r.take 20 := rfl
          rw [e] at hcs
          have : v :: r = (v :: r.take 20) ++ (v :: r).drop 21 := by
            rw [← e, List.take_append_drop]
          conv_lhs => rw [this, hcs]
          rfl
    · rintro ⟨v, hash, a, ⟨hv, hl, rfl⟩, hn⟩
      have hcs := checksum_length H (v :: hash)
      have hset : set58 s = .ok (v :: hash ++ (H.sha256 (H.sha256 (v :: hash))).take 4) := by
        rw [set58_ok_iff]
        refine ⟨?_, (numeral_iff _ _).mp hn⟩
        rw [List.length_append, hcs]; simp [hl]
      rw [hset, Res.ok_bind]
      have hd : (v :: hash ++ (H.sha256 (H.sha256 (v :: hash))).take 4).drop 21 = (H.sha256 (H.sha256 (v :: hash))).take 4 := by
        rw [List.drop_append_of_le_length (by simp [hl]), List.drop_of_length_le (by simp [hl])]; rfl
      have ht : (v :: hash ++ (H.sha256 (H.sha256 (v :: hash))).take 4).take 21 = v :: hash := by
        rw [List.take_append_of_le_length (by simp [hl]), List.take_of_length_le (by simp [hl])]
      simp only [embeddedChecksum, computeChecksum, hd, ht]
      rw [if_neg (by simp; rcases hv with rfl | rfl <;> simp), if_neg (by simp [Sha256d, Sha256])]
      rfl
  · simp only [ne_eq, Res.bind_eq_panic, not_or, not_exists, not_and]
    refine ⟨set58_not_panic s, ?_⟩
    intro a _
    split
    · simp
    · split <;> simp
  · simp only [ne_eq, Res.bind_eq_ok, not_exists, not_and]
    intro a _
    split
    · simp
    · split <;> simp

/-- Specification: strip all leading '1' characters. -/
def stripOnes (s : Bytes) : Bytes := s.dropWhile (· == 49)

/-- C24 (b), true part of "and it is the canonical text": an accepted string equals the canonical base58 text of its 25 bytes up to the number
of leading '1' characters. Missing from the full property: the number of leading '1's, which the code does not check. -/
theorem C24_canonical_up_to_ones (H : HashFns) (s : Bytes) (hp : ¬ bip276Prefix <+: s) (h : ValidateAddress H s = .ok true) :
    ∃ version hash a t, AddressBytes H.sha256 version hash a ∧ IsBase58Text t a ∧ stripOnes s = stripOnes t := by
  obtain ⟨v, hash, a, ha, hn⟩ := (C24_validate_iff H s hp).1.mp h
  refine ⟨v, hash, a, base58Encode a, ha, (base58Encode_text _ _).mpr rfl, ?_⟩
  have h1 := (numeral_iff _ _).mp hn
  have h2 := value58_base58Encode a
  have strip : ∀ (u : Bytes) (w : Nat), value58 0 u = some w → ∃ ds : List Nat, (∀ d ∈ ds, d < 58) ∧ (∀ d, ds.getLast? = some d → d ≠ 0) ∧
      stripOnes u = ds.reverse.map char58 ∧ digVal 58 ds = w := by
    intro u w hu
    have : value58 0 (stripOnes u) = some w := by
      rw [split_zeros 49 u, value58_ones] at hu; exact hu
    obtain ⟨ds, d1, d2, d3⟩ := value58_some this
    refine ⟨ds, d1, ?_, d2, d3⟩
    intro d hd e
    have hh : (stripOnes u).head? = some (char58 d) := by
      rw [d2, List.map_reverse, List.head?_reverse, List.getLast?_map, hd]; rfl
    have := dropWhile_head 49 u _ hh
    rw [e] at this
    exact this (by decide)
  obtain ⟨d1, a1, b1, c1, e1⟩ := strip s _ h1
  obtain ⟨d2, a2, b2, c2, e2⟩ := strip _ _ h2
  have := digVal_inj 58 (by norm_num) d1 d2 a1 a2 b1 b2 (by rw [e1, e2])
  rw [c1, c2, this]

/-- C24 is violated: whenever a string is accepted, so is the string with any number of '1' characters put in front, and (for hash functions of
any kind) the mainnet address of every hash is accepted with its leading '1' removed. These strings are not the canonical text of any 25 bytes accepted. -/
theorem C24_violation (H : HashFns) (hash : Bytes) (hl : hash.length = 20) (k : Nat) :
    let addr := (Address.NewFromPublicKeyHash H hash true).AddressString
    ValidateAddress H (List.replicate k 49 ++ addr) = .ok true ∧
    (∃ r, addr = 49 :: r ∧ ValidateAddress H r = .ok true ∧ ∀ v h' a, AddressBytes H.sha256 v h' a → ¬ IsBase58Text r a) ∧
    (k ≠ 0 → ∀ v h' a, AddressBytes H.sha256 v h' a → ¬ IsBase58Text (List.replicate k 49 ++ addr) a) := by
  intro addr
  have haddr : addr = base58Encode (0 :: hash ++ (H.sha256 (H.sha256 (0 :: hash))).take 4) := rfl
  set b := (0 :: hash ++ (H.sha256 (H.sha256 (0 :: hash))).take 4 : Bytes) with hb
  have hbl : b.length = 25 := by rw [hb, List.length_append, checksum_length]; simp [hl]
  have hval := value58_base58Encode b
  have h1 : ∃ r, addr = 49 :: r := by
    refine ⟨addr.drop 1, ?_⟩
    rw [haddr]
    unfold base58Encode
    rw [hb]
    simp only [List.cons_append, List.takeWhile_cons, beq_self_eq_true, if_true, List.map_cons, List.drop_succ_cons, List.drop_zero]
  have np : ∀ r : Bytes, ¬ bip276Prefix <+: 49 :: r := by
    intro r h; have := List.prefix_iff_eq_take.mp h; simp [bip276Prefix] at this
  have good : AddressBytes H.sha256 0 hash b := ⟨Or.inl rfl, hl, rfl⟩
  have canon : ∀ (u : Bytes) v h' a, AddressBytes H.sha256 v h' a → IsBase58Text u a → value58 0 u = some (beNat b) → u = addr := by
    intro u v h' a hab ht hu
    have e := (base58Encode_text _ _).mp ht
    have v1 := value58_base58Encode a
    rw [← e, hu] at v1
    have v2 : beNat b = beNat a := by injection v1
    have ha : a.length = 25 := by
      obtain ⟨_, h1, rfl⟩ := hab
      rw [List.length_append, checksum_length]; simp [h1]
    have v3 := beNat_inj (by rw [hbl, ha]) v2
    rw [e, ← v3, haddr]
  refine ⟨?_, ?_, ?_⟩
  · have hnp : ¬ bip276Prefix <+: List.replicate k 49 ++ addr := by
      obtain ⟨r, hr⟩ := h1
      cases k with
      | zero => rw [hr]; exact np r
      | succ k => exact np _
    exact (C24_validate_iff H _ hnp).1.mpr ⟨0, hash, b, good, by rw [numeral_iff, value58_ones, haddr, hval]⟩
  · obtain ⟨r, hr⟩ := h1
    have hvr : value58 0 r = some (beNat b) := by
      rw [← haddr, hr, show (49:UInt8) :: r = List.replicate 1 49 ++ r from rfl, value58_ones] at hval
      exact hval
    have hnp : ¬ bip276Prefix <+: r := by
      rintro ⟨t, ht⟩
      rw [← ht, value58_append] at hvr
      have : value58 0 bip276Prefix = none := by decide +kernel
      rw [this] at hvr; simp at hvr
    refine ⟨r, hr, (C24_validate_iff H _ hnp).1.mpr ⟨0, hash, b, good, (numeral_iff _ _).mpr hvr⟩, ?_⟩
    intro v h' a hab ht
    have := canon r v h' a hab ht hvr
    rw [hr] at this
    have := congrArg List.length this
    simp at this
  · intro hk v h' a hab ht
    have := canon _ v h' a hab ht (by rw [value58_ones, haddr, hval])
    have := congrArg List.length this
    simp at this
    exact hk this

example : ValidateAddress toyH (Address.NewFromPublicKeyHash toyH (List.replicate 20 7) true).AddressString = .ok true ∧
    ValidateAddress toyH b!"1A1zP1" = .err "checksum failed" ∧ ValidateAddress toyH b!"10" = .err "bad char" := by decide +kernel

/-! ## C23 -/

/-- C23: `ValidateAddress` accepts every generated address, on either network, for every constructor. -/
theorem C23_generated_valid (H : HashFns) (hash pk : Bytes) (mainnet : Bool) (hl : hash.length = 20) :
    ValidateAddress H (Address.NewFromPublicKeyHash H hash mainnet).AddressString = .ok true ∧
    ValidateAddress H (Address.NewFromPublicKey H pk mainnet).AddressString = .ok true ∧
    (∃ a, Address.NewFromPublicKeyString H (hexEncode pk) mainnet = .ok a ∧ ValidateAddress H a.AddressString = .ok true) := by
  have key : ∀ hash : Bytes, hash.length = 20 → ValidateAddress H (Address.NewFromPublicKeyHash H hash mainnet).AddressString = .ok true := by
    intro hash hl
    have hnp : ¬ bip276Prefix <+: (Address.NewFromPublicKeyHash H hash mainnet).AddressString := by
      intro h
      have hv := value58_base58Encode ((if mainnet = false then 111 else 0 : UInt8) :: hash ++ checksum H ((if mainnet = false then 111 else 0 : UInt8) :: hash))
      obtain ⟨t, ht⟩ := h
      have e : (Address.NewFromPublicKeyHash H hash mainnet).AddressString = base58Encode ((if mainnet = false then 111 else 0 : UInt8) :: hash ++ checksum H ((if mainnet = false then 111 else 0 : UInt8) :: hash)) := rfl
      rw [← e, ← ht, value58_append] at hv
      have : value58 0 bip276Prefix = none := by decide +kernel
      rw [this] at hv
      simp at hv
    obtain ⟨a, ha, ht⟩ := C22_address_text H hash mainnet hl
    refine (C24_validate_iff H _ hnp).1.mpr ⟨_, hash, a, ha, ?_⟩
    rw [numeral_iff, (base58Encode_text _ _).mp ht, value58_base58Encode]
  have hr : (Hash160 H pk).length = 20 := H.ripemd160_length _
  refine ⟨key hash hl, key _ hr, ?_⟩
  exact ⟨Address.NewFromPublicKeyHash H (Hash160 H pk) mainnet, by simp [Address.NewFromPublicKeyString], key _ hr⟩

example : (List.replicate 20 (7:UInt8)).length = 20 := by decide

/-! ## C25 -/

/-- C25, exact behaviour of `NewFromString`: it accepts precisely the canonical base58 texts of 25 bytes whose first byte is 0x00 or 0x6f,
whatever the last four (checksum) bytes are, and returns bytes 1..20 in hex. -/
theorem C25_newFromString_iff (s : Bytes) (r : Address) :
    Address.NewFromString s = .ok r ↔
      ∃ version hash cs, (version = 0x00 ∨ version = 0x6f) ∧ hash.length = 20 ∧ cs.length = 4 ∧
        IsBase58Text s (version :: hash ++ cs) ∧ r = { AddressString := s, PublicKeyHash := hexEncode hash } := by
  unfold Address.NewFromString
  rw [Res.bind_eq_ok]
  constructor
  · rintro ⟨pkh, h1, h2⟩
    simp only [addressToPubKeyHashStr] at h1
    split at h1
    · simp at h1
    · rename_i hl
      simp only [ne_eq, not_not] at hl
      obtain ⟨w, hw⟩ : ∃ w, value58 0 s = some w := by
        rcases hv : value58 0 s with _ | w
        · unfold base58Decode at hl; rw [hv] at hl; simp at hl
        · exact ⟨w, rfl⟩
      have hrt := base58_roundtrip' hw
      set d := base58Decode s with hd
      obtain ⟨v, rr, hvr⟩ : ∃ v r, d = v :: r := by
        cases hdd : d with
        | nil => rw [hdd] at hl; simp at hl
        | cons v r => exact ⟨v, r, rfl⟩
      rw [hvr] at h1 hl hrt
      simp only [List.getD_cons_zero, List.length_cons] at h1 hl
      have hd' : ((v :: rr).take (rr.length + 1 - 4)).drop 1 = rr.take 20 := by
        rw [hl]; rfl
      rw [hd'] at h1
      have hver : (v = 0 ∨ v = 0x6f) ∧ pkh = hexEncode (rr.take 20) := by
        split at h1
        · rename_i h; simp at h1; exact ⟨Or.inl h, h1.symm⟩
        · split at h1
          · rename_i h; simp at h1; exact ⟨Or.inr h, h1.symm⟩
          · simp at h1
      refine ⟨v, rr.take 20, rr.drop 20, hver.1, by simp; omega, by simp; omega, ?_, ?_⟩
      · rw [base58Encode_text, List.cons_append, List.take_append_drop, hrt]
      · simp at h2; rw [← h2, hver.2]
  · rintro ⟨v, hash, cs, hv, hl, hc, ht, rfl⟩
    refine ⟨hexEncode hash, ?_, rfl⟩
    rw [base58Encode_text] at ht
    subst ht
    simp only [addressToPubKeyHashStr, base58_roundtrip]
    have hlen : (v :: hash ++ cs).length = 25 := by simp [hl, hc]
    rw [if_neg (by omega), hlen]
    have htake : ((v :: hash ++ cs).take (25 - 4)).drop 1 = hash := by
      rw [List.take_append_of_le_length (by simp [hl]), List.take_of_length_le (by simp [hl])]; rfl
    rw [htake]
    rcases hv with rfl | rfl
    · exact if_pos rfl
    · rw [if_neg (by simp)]; exact if_pos rfl

/-- C25, true part: a string accepted by both is understood alike: if `ValidateAddress` accepts a canonical text then `NewFromString` accepts it and returns its
hash; and `NewFromString` never panics. Missing from the full property: `NewFromString` accepts wrong checksums (`C25_violation`). -/
theorem C25_newFromString_agrees (H : HashFns) (s hash a : Bytes) (v : UInt8) (ha : AddressBytes H.sha256 v hash a) (ht : IsBase58Text s a) :
    Address.NewFromString s = .ok { AddressString := s, PublicKeyHash := hexEncode hash } ∧ ∀ s', Address.NewFromString s' ≠ .panic := by
  constructor
  · rw [C25_newFromString_iff]
    obtain ⟨h1, h2, rfl⟩ := ha
    exact ⟨v, hash, _, h1, h2, checksum_length H _, ht, rfl⟩
  · intro s'
    simp only [Address.NewFromString, ne_eq, Res.bind_eq_panic, not_or, not_exists, not_and, addressToPubKeyHashStr]
    refine ⟨?_, by simp⟩
    split_ifs <;> simp

/-- C25 is violated: for every hash function, every 20-byte hash, both networks and *every* wrong checksum, `NewFromString`, `NewP2PKHFromAddress` and `PayTo` accept the
address although `ValidateAddress` refuses it. -/
theorem C25_violation (H : HashFns) (hash cs : Bytes) (mainnet : Bool) (hl : hash.length = 20) (hc : cs.length = 4)
    (hbad : cs ≠ (H.sha256 (H.sha256 ((if mainnet then 0x00 else 0x6f) :: hash))).take 4) (tx : Transaction) (sats : UInt64) :
    let s := base58Encode ((if mainnet then 0x00 else 0x6f) :: hash ++ cs)
    ValidateAddress H s = .err "checksum failed" ∧
    Address.NewFromString s = .ok { AddressString := s, PublicKeyHash := hexEncode hash } ∧
    NewP2PKHFromAddress s = .ok ([0x76, 0xa9, 0x14] ++ hash ++ [0x88, 0xac]) ∧
    Transaction.PayTo tx s sats = .ok { tx with Outputs := tx.Outputs ++ [{ Satoshis := sats, LockingScript := [0x76, 0xa9, 0x14] ++ hash ++ [0x88, 0xac] }] } := by
  intro s
  set v : UInt8 := if mainnet then 0x00 else 0x6f with hv
  have hvv : v = 0 ∨ v = 0x6f := by cases mainnet <;> simp [hv]
  have hval : value58 0 s = some (beNat (v :: hash ++ cs)) := value58_base58Encode _
  have hlen : (v :: hash ++ cs).length = 25 := by simp [hl, hc]
  have hnew : Address.NewFromString s = .ok { AddressString := s, PublicKeyHash := hexEncode hash } :=
    (C25_newFromString_iff s _).mpr ⟨v, hash, cs, hvv, hl, hc, (base58Encode_text _ _).mpr rfl, rfl⟩
  have hscr : NewP2PKHFromAddress s = .ok ([0x76, 0xa9, 0x14] ++ hash ++ [0x88, 0xac]) := by
    unfold NewP2PKHFromAddress
    rw [hnew]
    have he : EncodeParts [hash] = .ok (0x14 :: hash) := by
      rw [encodeParts_ok_iff]
      refine ⟨by simp [hl], ?_⟩
      simp [bytesOf, tokenFor, hl, Token.bytes, Token.header, Token.data]
    simp [hexDecodeRes_encode, AppendPushData, AppendOpCode, he, OpDUP, OpHASH160, OpEQUALVERIFY, OpCHECKSIG]
  refine ⟨?_, hnew, hscr, ?_⟩
  · have hnp : ¬ (b!"bitcoin-script:").isPrefixOf s = true := by
      intro h
      obtain ⟨t, ht⟩ := List.isPrefixOf_iff_prefix.mp h
      rw [← ht, value58_append] at hval
      have : value58 0 b!"bitcoin-script:" = none := by decide +kernel
      rw [this] at hval; simp at hval
    unfold ValidateAddress
    rw [if_neg hnp]
    unfold validA58
    have hset : set58 s = .ok (v :: hash ++ cs) := (set58_ok_iff _ _).mpr ⟨hlen, hval⟩
    have hd : (v :: hash ++ cs).drop 21 = cs := by
      rw [List.drop_append_of_le_length (by simp [hl]), List.drop_of_length_le (by simp [hl])]; rfl
    have ht : (v :: hash ++ cs).take 21 = v :: hash := by
      rw [List.take_append_of_le_length (by simp [hl]), List.take_of_length_le (by simp [hl])]
    rw [hset, Res.ok_bind]
    simp only [embeddedChecksum, computeChecksum, hd, ht]
    rw [if_neg (by simp; rcases hvv with h | h <;> simp [h]), if_pos]
    exact hbad
  · simp [Transaction.PayTo, Output.NewP2PKHFromAddress, hscr, Transaction.AddOutput]

example : ∃ cs : Bytes, cs.length = 4 ∧ cs ≠ (toyH.sha256 (toyH.sha256 (0 :: List.replicate 20 7))).take 4 := ⟨[1, 2, 3, 4], by decide +kernel⟩

/-! ## C26 -/

/-- C26: mainnet addresses of 20-byte hashes begin with '1', testnet addresses with 'm' or 'n'. -/
theorem C26_first_character (H : HashFns) (hash : Bytes) (hl : hash.length = 20) :
    (Address.NewFromPublicKeyHash H hash true).AddressString.head? = some 49 ∧
    ((Address.NewFromPublicKeyHash H hash false).AddressString.head? = some 109 ∨
     (Address.NewFromPublicKeyHash H hash false).AddressString.head? = some 110) := by
  constructor
  · show (base58Encode (0 :: hash ++ checksum H (0 :: hash))).head? = some 49
    unfold base58Encode
    simp only [List.cons_append, List.takeWhile_cons, beq_self_eq_true, if_true, List.map_cons, List.cons_append, List.head?_cons]
  · set b := (111 :: hash ++ checksum H (111 :: hash) : Bytes) with hb
    have e : (Address.NewFromPublicKeyHash H hash false).AddressString = base58Encode b := rfl
    rw [e]
    set tl := hash ++ checksum H (111 :: hash) with htl
    have hbt : b = 111 :: tl := rfl
    have htll : tl.length = 24 := by rw [htl, List.length_append, checksum_eq, checksum_length]; omega
    have hv : beNat b = 111 * 256 ^ 24 + beNat tl := by rw [hbt, beNat_cons, htll]; rfl
    have hlt := beNat_lt tl
    rw [htll] at hlt
    have hlow : 58 ^ 33 ≤ beNat b := by rw [hv]; have : (58:Nat) ^ 33 ≤ 111 * 256 ^ 24 := by norm_num
                                        omega
    have hhigh : beNat b < 58 ^ (33 + 1) := by
      rw [hv]; have : (111:Nat) * 256 ^ 24 + 256 ^ 24 ≤ 58 ^ 34 := by norm_num
      omega
    have hfuel : 33 < (beNat b).log2 + 1 := by
      have : 33 ≤ (beNat b).log2 := by
        rw [Nat.le_log2 (by omega)]
        have : (2:Nat) ^ 33 ≤ 58 ^ 33 := by norm_num
        omega
      omega
    have hlast := digitsLE_last 58 (by norm_num) 33 (beNat b) hlow hhigh _ hfuel
    have htop : beNat b / 58 ^ 33 = 44 ∨ beNat b / 58 ^ 33 = 45 := by
      have h1 : 44 ≤ beNat b / 58 ^ 33 := by
        rw [Nat.le_div_iff_mul_le (by norm_num), hv]
        have : (44:Nat) * 58 ^ 33 ≤ 111 * 256 ^ 24 := by norm_num
        omega
      have h2 : beNat b / 58 ^ 33 < 46 := by
        rw [Nat.div_lt_iff_lt_mul (by norm_num), hv]
        have : (111:Nat) * 256 ^ 24 + 256 ^ 24 ≤ 46 * 58 ^ 33 := by norm_num
        omega
      omega
    have hhead : (base58Encode b).head? = some (char58 (beNat b / 58 ^ 33)) := by
      unfold base58Encode
      simp only
      have : b.takeWhile (· == 0) = [] := by rw [hbt, List.takeWhile_cons]; rfl
      rw [this, List.map_nil, List.nil_append, List.map_reverse, List.head?_reverse, List.getLast?_map, hlast]; rfl
    rw [hhead]
    rcases htop with h | h <;> rw [h]
    · left; decide
    · right; decide

example : (Address.NewFromPublicKeyHash toyH (List.replicate 20 0xff) false).AddressString.head? = some 110 ∧
    (Address.NewFromPublicKeyHash toyH (List.replicate 20 0) false).AddressString.head? = some 109 := by decide +kernel

/-! ## C27 -/

/-- The script built from an address of a 20-byte hash. -/
theorem p2pkhFromAddress (H : HashFns) (hash : Bytes) (mainnet : Bool) (hl : hash.length = 20) :
    NewP2PKHFromAddress (Address.NewFromPublicKeyHash H hash mainnet).AddressString = .ok ([0x76, 0xa9, 0x14] ++ hash ++ [0x88, 0xac]) := by
  unfold NewP2PKHFromAddress
  rw [(C22_address_roundtrip H hash mainnet hl).1]
  have he : EncodeParts [hash] = .ok (0x14 :: hash) := by
    rw [encodeParts_ok_iff]
    refine ⟨by simp [hl], ?_⟩
    simp [bytesOf, tokenFor, hl, Token.bytes, Token.header, Token.data]
  simp [(C22_address_roundtrip H hash mainnet hl).2, AppendPushData, AppendOpCode, he, OpDUP, OpHASH160, OpEQUALVERIFY, OpCHECKSIG]

/-- C27 (a): script from the key, from the hex key, from the hex key hash and from the address (either network) are the same. -/
theorem C27_constructors_agree (H : HashFns) (pk : Bytes) (mainnet : Bool) :
    NewP2PKHFromAddress (Address.NewFromPublicKey H pk mainnet).AddressString = .ok (NewP2PKHFromPubKeyBytes H pk) ∧
    (∃ a, Address.NewFromPublicKeyString H (hexEncode pk) mainnet = .ok a ∧ a = Address.NewFromPublicKey H pk mainnet ∧
      NewP2PKHFromAddress a.AddressString = .ok (NewP2PKHFromPubKeyBytes H pk) ∧
      NewP2PKHFromPubKeyHashStr a.PublicKeyHash = .ok (NewP2PKHFromPubKeyBytes H pk)) ∧
    NewP2PKHFromPubKeyStr H (hexEncode pk) = .ok (NewP2PKHFromPubKeyBytes H pk) ∧
    NewP2PKHFromPubKeyHashStr (hexEncode (H.ripemd160 (H.sha256 pk))) = .ok (NewP2PKHFromPubKeyBytes H pk) := by
  have hf := (C14_p2pkh_form H pk).1
  have h1 : NewP2PKHFromAddress (Address.NewFromPublicKey H pk mainnet).AddressString = .ok (NewP2PKHFromPubKeyBytes H pk) := by
    rw [hf]; exact p2pkhFromAddress H _ mainnet (H.ripemd160_length _)
  have h2 : NewP2PKHFromPubKeyHashStr (hexEncode (H.ripemd160 (H.sha256 pk))) = .ok (NewP2PKHFromPubKeyBytes H pk) := by
    rw [hf]; exact (C14_fromPubKeyHashStr []).2.2 _
  refine ⟨h1, ⟨Address.NewFromPublicKey H pk mainnet, by simp [Address.NewFromPublicKeyString, Address.NewFromPublicKey, Address.NewFromPublicKeyHash], rfl, h1, h2⟩,
    (C14_fromPubKeyStr H []).1 pk, h2⟩

/-- C27 (b): `PayTo` to that address appends exactly one output with that script and amount, and changes nothing else. -/
theorem C27_payTo (H : HashFns) (pk : Bytes) (mainnet : Bool) (tx : Transaction) (sats : UInt64) :
    Transaction.PayTo tx (Address.NewFromPublicKey H pk mainnet).AddressString sats =
      .ok { tx with Outputs := tx.Outputs ++ [{ Satoshis := sats, LockingScript := NewP2PKHFromPubKeyBytes H pk }] } := by
  simp [Transaction.PayTo, Output.NewP2PKHFromAddress, (C27_constructors_agree H pk mainnet).1, Transaction.AddOutput]

example : NewP2PKHFromAddress (Address.NewFromPublicKey toyH [2, 3, 4] true).AddressString = .ok (NewP2PKHFromPubKeyBytes toyH [2, 3, 4]) := by decide +kernel

end Verif.Props
