import Verif.Spec.Typo
import Verif.Lemmas.Typo
import Verif.Props.Balance
import Verif.Props.Spendable
/-!
# C137: paying to a mistyped address
-/
namespace Verif.Props
open Verif Spec Transaction Op

/-- `PayTo` with this text is an error, whatever the transaction and the amount. -/
def Refuses (s : Bytes) : Prop := ∀ tx sats, ∃ e, Transaction.PayTo tx s sats = .err e

/-- `PayTo` with this text adds an output to the key hash `h`, whatever the transaction and the amount. -/
def PaysHash (s h : Bytes) : Prop := ∀ tx sats, Transaction.PayTo tx s sats = .ok { tx with Outputs := tx.Outputs ++ [⟨sats, p2pkh h⟩] }

/-- What `PayTo` does with a text of 25 bytes with a known version byte. -/
theorem payTo_bytes (v : UInt8) (h cs : Bytes) (hv : v = 0 ∨ v = 0x6f) (hl : h.length = 20) (hc : cs.length = 4) : PaysHash (base58Encode (v :: h ++ cs)) h := by
  intro tx sats
  generalize ht : base58Encode (v :: h ++ cs) = t
  have hnew : Address.NewFromString t = .ok { AddressString := t, PublicKeyHash := hexEncode h } :=
    (C25_newFromString_iff _ _).mpr ⟨v, h, cs, hv, hl, hc, (base58Encode_text _ _).mpr ht.symm, rfl⟩
  have he : EncodeParts [h] = .ok (0x14 :: h) := by
    rw [encodeParts_ok_iff]
    refine ⟨by simp [hl], ?_⟩
    simp [bytesOf, tokenFor, hl, Token.bytes, Token.header, Token.data]
  simp [Transaction.PayTo, Output.NewP2PKHFromAddress, NewP2PKHFromAddress, hnew, hexDecodeRes_encode, AppendPushData, AppendOpCode, he, OpDUP, OpHASH160, OpEQUALVERIFY, OpCHECKSIG,
    Transaction.AddOutput, p2pkh]

/-- C137 (what a text pays): `PayTo` refuses a text, or pays a 20-byte hash; the latter exactly for the canonical base58 texts of 25 bytes with a known first byte. -/
theorem C137_pays_iff (s h : Bytes) (hl : h.length = 20) :
    (PaysHash s h ↔ ∃ (v : UInt8) (cs : Bytes), (v = 0 ∨ v = 0x6f) ∧ cs.length = 4 ∧ IsBase58Text s (v :: h ++ cs)) := by
  constructor
  · intro hp
    have h1 := hp Transaction.New 0
    simp only [Transaction.PayTo, Output.NewP2PKHFromAddress, NewP2PKHFromAddress] at h1
    cases hn : Address.NewFromString s with
    | err e => rw [hn] at h1; exact absurd h1 (by simp)
    | panic => rw [hn] at h1; exact absurd h1 (by simp)
    | ok r =>
      obtain ⟨v, h', cs, hv, hl', hc, ht, -⟩ := (C25_newFromString_iff s r).mp hn
      have h2 := payTo_bytes v h' cs hv hl' hc Transaction.New 0
      rw [← (base58Encode_text _ _).mp ht, hp Transaction.New 0] at h2
      simp only [Res.ok.injEq, Transaction.mk.injEq, List.append_cancel_left_eq, List.cons.injEq, Output.mk.injEq, and_true, true_and] at h2
      obtain rfl := p2pkh_inj h2
      exact ⟨v, cs, hv, hc, ht⟩
  · rintro ⟨v, cs, hv, hc, ht⟩
    rw [(base58Encode_text _ _).mp ht]
    exact payTo_bytes v h cs hv hl hc

theorem C137_pays_or (s : Bytes) : Refuses s ∨ ∃ h, h.length = 20 ∧ PaysHash s h := by
  cases hn : Address.NewFromString s with
  | err e => exact Or.inl fun tx sats => ⟨e, by simp [Transaction.PayTo, Output.NewP2PKHFromAddress, NewP2PKHFromAddress, hn]⟩
  | panic =>
    exfalso
    simp only [Address.NewFromString, Res.bind_eq_panic, addressToPubKeyHashStr] at hn
    rcases hn with hn | ⟨x, -, hn⟩
    · split_ifs at hn
    · exact absurd hn (by simp)
  | ok r =>
    obtain ⟨v, h', cs, hv, hl', hc, ht, -⟩ := (C25_newFromString_iff s r).mp hn
    exact Or.inr ⟨h', hl', (C137_pays_iff s h' hl').mpr ⟨v, cs, hv, hc, ht⟩⟩

/-- The value of the 25 bytes of an address. -/
theorem address_value (v : UInt8) (h cs : Bytes) (hl : h.length = 20) (hc : cs.length = 4) : beNat (v :: h ++ cs) = v.toNat * 2 ^ 192 + beNat h * 2 ^ 32 + beNat cs ∧ beNat cs < 2 ^ 32 ∧ beNat h < 2 ^ 160 := by
  refine ⟨?_, ?_, ?_⟩
  · rw [List.cons_append, beNat_cons, beNat_append, hc, List.length_append, hl, hc]
    norm_num
    omega
  · have := beNat_lt cs
    rw [hc] at this
    simpa using this
  · have := beNat_lt h
    rw [hl] at this
    norm_num at this ⊢
    exact this

theorem text_value {s b : Bytes} (h : IsBase58Text s b) : value58 0 s = some (beNat b) := by
  rw [(base58Encode_text _ _).mp h]; exact value58_base58Encode b

/-- If a typo leaves the 20 bytes of the hash as they were, then the version too, and the change is smaller than the checksum. -/
theorem typo_core {a s h : Bytes} {v v' : UInt8} {cs cs' : Bytes} (hl : h.length = 20) (hc : cs.length = 4) (hc' : cs'.length = 4) (hv : v = 0 ∨ v = 0x6f) (hv' : v' = 0 ∨ v' = 0x6f)
    (ha : IsBase58Text a (v :: h ++ cs)) (hs : IsBase58Text s (v' :: h ++ cs')) (k : Nat) :
    (Replaced a s k → v' = v ∧ cs' ≠ cs ∧ 58 ^ k < 2 ^ 32) ∧ (Swapped a s k → v' = v ∧ cs' ≠ cs ∧ 57 * 58 ^ k < 2 ^ 32) := by
  have h1 := text_value ha
  have h2 := text_value hs
  obtain ⟨e1, l1, g1⟩ := address_value v h cs hl hc
  obtain ⟨e2, l2, -⟩ := address_value v' h cs' hl hc'
  have key : ∀ e m, (m = 1 ∨ m = 57) → 0 < e → e < 58 → (beNat (v' :: h ++ cs') = beNat (v :: h ++ cs) + e * m * 58 ^ k ∨ beNat (v :: h ++ cs) = beNat (v' :: h ++ cs') + e * m * 58 ^ k) →
      v' = v ∧ cs' ≠ cs ∧ m * 58 ^ k < 2 ^ 32 := by
    intro e m hm he he' hch
    have hbig := typo_version_big k e m hm ⟨he, he'⟩
    have hpos : 0 < e * m * 58 ^ k := Nat.mul_pos (Nat.mul_pos he (by rcases hm with rfl | rfl <;> norm_num)) (by positivity)
    have hle : m * 58 ^ k ≤ e * m * 58 ^ k := by rw [Nat.mul_assoc]; exact Nat.le_mul_of_pos_left _ he
    obtain ⟨D, hD⟩ : ∃ D, D = e * m * 58 ^ k := ⟨_, rfl⟩
    obtain ⟨D', hD'⟩ : ∃ D', D' = m * 58 ^ k := ⟨_, rfl⟩
    rw [← hD] at hbig hpos hle hch
    rw [← hD'] at hle ⊢
    clear hD hD'
    rw [e1, e2] at hch
    have hvv : v' = v := by
      rcases hv with rfl | rfl <;> rcases hv' with rfl | rfl
      · rfl
      · exfalso
        have q0 : (0 : UInt8).toNat = 0 := rfl
        have q1 : (0x6f : UInt8).toNat = 111 := rfl
        rw [q0, q1] at hch
        omega
      · exfalso
        have q0 : (0 : UInt8).toNat = 0 := rfl
        have q1 : (0x6f : UInt8).toNat = 111 := rfl
        rw [q0, q1] at hch
        omega
      · rfl
    subst hvv
    refine ⟨rfl, ?_, ?_⟩
    · rintro rfl
      omega
    · omega
  constructor
  · intro hr
    obtain ⟨e, q1, q2, q3⟩ := value58_replaced hr h1 h2
    obtain ⟨r1, r2, r3⟩ := key e 1 (Or.inl rfl) q1 q2 (by simpa using q3)
    exact ⟨r1, r2, by simpa using r3⟩
  · intro hr
    obtain ⟨e, q1, q2, q3⟩ := value58_swapped hr h1 h2
    exact key e 57 (Or.inr rfl) q1 q2 q3

theorem addressText (H : HashFns) (h : Bytes) (mainnet : Bool) :
    IsBase58Text (Address.NewFromPublicKeyHash H h mainnet).AddressString ((if mainnet then 0 else 0x6f) :: h ++ (H.sha256 (H.sha256 ((if mainnet then 0 else 0x6f) :: h))).take 4) := by
  cases mainnet <;> exact (base58Encode_text _ _).mpr rfl

/-- C137 (the key hash): an address with one character replaced by any other, at least six characters before its end, or with two different neighbours exchanged, followed by at least five
characters, is refused or pays **another** key hash. -/
theorem C137_elsewhere (H : HashFns) (h : Bytes) (hl : h.length = 20) (mainnet : Bool) (s : Bytes) (k : Nat)
    (ht : (Replaced (Address.NewFromPublicKeyHash H h mainnet).AddressString s k ∧ 6 ≤ k) ∨ (Swapped (Address.NewFromPublicKeyHash H h mainnet).AddressString s k ∧ 5 ≤ k)) :
    Refuses s ∨ ∃ h', h'.length = 20 ∧ h' ≠ h ∧ PaysHash s h' := by
  rcases C137_pays_or s with hr | ⟨h', hl', hp⟩
  · exact Or.inl hr
  · refine Or.inr ⟨h', hl', ?_, hp⟩
    rintro rfl
    obtain ⟨v', cs', hv', hc', hs⟩ := (C137_pays_iff s h' hl').mp hp
    have core := typo_core hl' (checksum_length H _) hc' (by cases mainnet <;> simp) hv' (addressText H h' mainnet) hs k
    rcases ht with ⟨hr, hk⟩ | ⟨hr, hk⟩
    · have h1 := (core.1 hr).2.2
      have h2 : (58:Nat) ^ 6 ≤ 58 ^ k := Nat.pow_le_pow_right (by norm_num) hk
      norm_num at h2
      omega
    · have h1 := (core.2 hr).2.2
      have h2 : (58:Nat) ^ 5 ≤ 58 ^ k := Nat.pow_le_pow_right (by norm_num) hk
      norm_num at h2
      omega

/-- C137 (the checksum): an address with one character replaced in its last five, or two neighbours exchanged in its last five, is refused or pays the same key hash or one next to it (as
numbers). -/
theorem C137_tail (H : HashFns) (h : Bytes) (hl : h.length = 20) (mainnet : Bool) (s : Bytes) (k : Nat)
    (ht : (Replaced (Address.NewFromPublicKeyHash H h mainnet).AddressString s k ∧ k ≤ 4) ∨ (Swapped (Address.NewFromPublicKeyHash H h mainnet).AddressString s k ∧ k ≤ 3)) :
    Refuses s ∨ ∃ h', h'.length = 20 ∧ beNat h' ≤ beNat h + 1 ∧ beNat h ≤ beNat h' + 1 ∧ PaysHash s h' := by
  rcases C137_pays_or s with hr | ⟨h', hl', hp⟩
  · exact Or.inl hr
  · refine Or.inr ⟨h', hl', ?_⟩
    obtain ⟨v', cs', hv', hc', hs⟩ := (C137_pays_iff s h' hl').mp hp
    have ha := addressText H h mainnet
    have hv : ((if mainnet then 0 else 0x6f : UInt8) = 0 ∨ (if mainnet then 0 else 0x6f : UInt8) = 0x6f) := by cases mainnet <;> simp
    have hc := checksum_length H ((if mainnet then 0 else 0x6f : UInt8) :: h)
    generalize (if mainnet then 0 else 0x6f : UInt8) = v at *
    generalize (H.sha256 (H.sha256 (v :: h))).take 4 = cs at *
    have h1 := text_value ha
    have h2 := text_value hs
    obtain ⟨e1, l1, g1⟩ := address_value v h cs hl hc
    obtain ⟨e2, l2, g2⟩ := address_value v' h' cs' hl' hc'
    have hch : ∃ D, D < 2 ^ 32 ∧ (beNat (v' :: h' ++ cs') = beNat (v :: h ++ cs) + D ∨ beNat (v :: h ++ cs) = beNat (v' :: h' ++ cs') + D) := by
      rcases ht with ⟨hr, hk⟩ | ⟨hr, hk⟩
      · obtain ⟨e, q1, q2, q3⟩ := value58_replaced hr h1 h2
        refine ⟨_, ?_, q3⟩
        have p : (58:Nat) ^ k ≤ 58 ^ 4 := Nat.pow_le_pow_right (by norm_num) hk
        have : e * 58 ^ k ≤ 57 * 58 ^ 4 := Nat.mul_le_mul (by omega) p
        norm_num at this
        omega
      · obtain ⟨e, q1, q2, q3⟩ := value58_swapped hr h1 h2
        refine ⟨_, ?_, q3⟩
        have p : (58:Nat) ^ k ≤ 58 ^ 3 := Nat.pow_le_pow_right (by norm_num) hk
        have : e * 57 * 58 ^ k ≤ 57 * 57 * 58 ^ 3 := Nat.mul_le_mul (Nat.mul_le_mul (by omega) le_rfl) p
        norm_num at this
        omega
    obtain ⟨D, hD, hch⟩ := hch
    rw [e1, e2] at hch
    have q0 : (0 : UInt8).toNat = 0 := rfl
    have q1 : (0x6f : UInt8).toNat = 111 := rfl
    have fin : beNat h' ≤ beNat h + 1 ∧ beNat h ≤ beNat h' + 1 := by
      rcases hv with rfl | rfl <;> rcases hv' with rfl | rfl <;> simp only [q0, q1] at hch <;> omega
    exact ⟨fin.1, fin.2, hp⟩

/-- C137 (the payer who checks first): if `ValidateAddress` accepts the mistyped text — however late in it the typo is — then it still does not pay the key hash of the address; and it is
itself the address (with the right number of leading '1's: `C137_pays_iff`) of the hash that it pays. -/
theorem C137_careful (H : HashFns) (h : Bytes) (hl : h.length = 20) (mainnet : Bool) (s : Bytes) (k : Nat)
    (ht : Replaced (Address.NewFromPublicKeyHash H h mainnet).AddressString s k ∨ Swapped (Address.NewFromPublicKeyHash H h mainnet).AddressString s k)
    (hv : ValidateAddress H s = .ok true) :
    Refuses s ∨ ∃ h' mainnet', h'.length = 20 ∧ h' ≠ h ∧ PaysHash s h' ∧ s = (Address.NewFromPublicKeyHash H h' mainnet').AddressString := by
  rcases C137_pays_or s with hr | ⟨h', hl', hp⟩
  · exact Or.inl hr
  · right
    obtain ⟨v', cs', hv', hc', hs⟩ := (C137_pays_iff s h' hl').mp hp
    have hval := text_value hs
    have hnp : ¬ bip276Prefix <+: s := by
      rintro ⟨t, ht⟩
      rw [← ht, value58_append] at hval
      have : value58 0 bip276Prefix = none := by decide +kernel
      rw [this] at hval; simp at hval
    obtain ⟨v2, h2, a2, ⟨hv2, hl2, rfl⟩, hn⟩ := (C24_validate_iff H s hnp).1.mp hv
    rw [numeral_iff, hval] at hn
    have hn := Option.some.inj hn
    have heq := beNat_inj (by simp [hl', hc', hl2, H.sha256_length]) hn
    have heq' := List.append_inj heq (by simp [hl', hl2])
    simp only [List.cons.injEq] at heq'
    obtain ⟨⟨rfl, rfl⟩, rfl⟩ := heq'
    refine ⟨h', decide (v' = 0), hl', ?_, hp, ?_⟩
    · rintro rfl
      have core := typo_core hl' (checksum_length H _) hc' (by cases mainnet <;> simp) hv' (addressText H h' mainnet) hs k
      have : v' = (if mainnet then 0 else 0x6f) ∧ (H.sha256 (H.sha256 (v' :: h'))).take 4 ≠ (H.sha256 (H.sha256 ((if mainnet then 0 else 0x6f) :: h'))).take 4 := by
        rcases ht with hr | hr
        · exact ⟨(core.1 hr).1, (core.1 hr).2.1⟩
        · exact ⟨(core.2 hr).1, (core.2 hr).2.1⟩
      exact this.2 (by rw [← this.1])
    · rw [(base58Encode_text _ _).mp hs, (base58Encode_text _ _).mp (addressText H h' (decide (v' = 0)))]
      have : (if decide (v' = 0) = true then 0 else 0x6f : UInt8) = v' := by rcases hv' with rfl | rfl <;> rfl
      rw [this]

theorem bigBytes_length {m V : Nat} (h1 : 256 ^ m ≤ V) (h2 : V < 256 ^ (m + 1)) : (bigBytes V).length = m + 1 := by
  obtain ⟨q1, q2⟩ := bigBytes_noZero V
  have l1 := beNat_lt (bigBytes V)
  rw [q2] at l1
  have g1 : m < (bigBytes V).length := by
    by_contra hc
    have : (256:Nat) ^ (bigBytes V).length ≤ 256 ^ m := Nat.pow_le_pow_right (by norm_num) (by omega)
    omega
  cases hb : bigBytes V with
  | nil => rw [hb] at g1; simp at g1
  | cons x r =>
    rw [hb] at q1 q2 g1
    have hx : x ≠ 0 := by simpa using q1
    have hx' : 1 ≤ x.toNat := by
      rcases Nat.eq_zero_or_pos x.toNat with h0 | h0
      · exact absurd (UInt8.toNat_inj.mp (by rw [h0]; rfl)) hx
      · exact h0
    rw [beNat_cons] at q2
    have : 1 * 256 ^ r.length ≤ x.toNat * 256 ^ r.length := Nat.mul_le_mul_right _ hx'
    have g2 : r.length < m + 1 := by
      by_contra hc
      have : (256:Nat) ^ (m + 1) ≤ 256 ^ r.length := Nat.pow_le_pow_right (by norm_num) (by omega)
      omega
    simp only [List.length_cons] at g1 ⊢
    omega

/-- A text with one character replaced well behind its leading '1's has as many of them. -/
theorem replaced_ones {n : Nat} {t s : Bytes} {k : Nat} (ht : t.head? ≠ some 49) (hk : k + 1 < t.length) (hr : Replaced (List.replicate n 49 ++ t) s k) :
    ∃ t', s = List.replicate n 49 ++ t' ∧ t'.head? ≠ some 49 ∧ Replaced t t' k := by
  obtain ⟨pre, c, c', post, he, rfl, hne, rfl⟩ := hr
  have hlen := congrArg List.length he
  simp only [List.length_append, List.length_replicate, List.length_cons] at hlen
  have h1 : pre.take n = List.replicate n 49 := by
    have := congrArg (List.take n) he
    rw [List.take_left' (by simp), List.take_append_of_le_length (by omega)] at this
    exact this.symm
  have h2 : t = pre.drop n ++ c :: post := by
    have := congrArg (List.drop n) he
    rw [List.drop_left' (by simp), List.drop_append_of_le_length (by omega)] at this
    exact this
  refine ⟨pre.drop n ++ c' :: post, ?_, ?_, ⟨pre.drop n, c, c', post, h2, rfl, hne, rfl⟩⟩
  · rw [← h1, ← List.append_assoc, List.take_append_drop]
  · cases hp : pre.drop n with
    | nil =>
      have := congrArg List.length hp
      simp at this
      omega
    | cons x r =>
      rw [h2, hp] at ht
      simpa using ht

/-- C137 (what the checksum is for): an address with **any** one of its last 31 characters replaced by any other base58 character is **never** refused by `PayTo`, unless the first byte of
the key hash is one of the three values 0, 1, 255 — whatever the checksum. -/
theorem C137_never_refused (H : HashFns) (h : Bytes) (hl : h.length = 20) (b : UInt8) (hb : h.head? = some b) (hb' : 2 ≤ b.toNat ∧ b.toNat ≤ 254) (mainnet : Bool) (s : Bytes) (k : Nat) (hk : k ≤ 30)
    (ht : Replaced (Address.NewFromPublicKeyHash H h mainnet).AddressString s k) (hs : ∃ v, IsNumeral58 s v) : ∃ h', h'.length = 20 ∧ PaysHash s h' := by
  obtain ⟨V', hs⟩ := hs
  rw [numeral_iff] at hs
  have ha := addressText H h mainnet
  have hv : ((if mainnet then 0 else 0x6f : UInt8) = 0 ∨ (if mainnet then 0 else 0x6f : UInt8) = 0x6f) := by cases mainnet <;> simp
  have hc := checksum_length H ((if mainnet then 0 else 0x6f : UInt8) :: h)
  generalize (if mainnet then 0 else 0x6f : UInt8) = v at *
  generalize (H.sha256 (H.sha256 (v :: h))).take 4 = cs at *
  generalize (Address.NewFromPublicKeyHash H h mainnet).AddressString = a at *
  obtain ⟨e1, l1, g1⟩ := address_value v h cs hl hc
  have hV := text_value ha
  -- the hash as a number
  obtain ⟨r, rfl⟩ : ∃ r, h = b :: r := by
    cases h with
    | nil => simp at hb
    | cons x r => simp at hb; exact ⟨r, by rw [hb]⟩
  have hh : beNat (b :: r) = b.toNat * 2 ^ 152 + beNat r ∧ beNat r < 2 ^ 152 := by
    have hr19 : r.length = 19 := by simpa using hl
    have := beNat_lt r
    rw [hr19] at this
    norm_num at this
    rw [beNat_cons, hr19]
    norm_num
    exact this
  obtain ⟨n, t, c, hbytes, hc0, rfl, ht0, hnum⟩ := ha
  have hVc : beNat (v :: (b :: r) ++ cs) = beNat c := by rw [hbytes]; exact beNat_zeros n c
  rw [numeral_iff] at hnum
  have htl := value58_lt hnum
  -- sizes
  obtain ⟨e, q1, q2, q3⟩ := value58_replaced ht hV hs
  obtain ⟨D, hD⟩ : ∃ D, D = e * 58 ^ k := ⟨_, rfl⟩
  have hDlt : D < 2 ^ 184 := by
    have p : (58:Nat) ^ k ≤ 58 ^ 30 := Nat.pow_le_pow_right (by norm_num) hk
    have : e * 58 ^ k ≤ 57 * 58 ^ 30 := Nat.mul_le_mul (by omega) p
    rw [← hD] at this
    have hn : 57 * 58 ^ 30 < 2 ^ 184 := by norm_num
    exact Nat.lt_of_le_of_lt this hn
  rw [← hD] at q3
  clear hD
  have htlen : k + 1 < t.length := by
    by_contra hcon
    have p : (58:Nat) ^ t.length ≤ 58 ^ 31 := Nat.pow_le_pow_right (by norm_num) (by omega)
    have hn : (58:Nat) ^ 31 ≤ 2 ^ 184 := by norm_num
    rw [← hVc, e1] at htl
    have := Nat.lt_of_lt_of_le htl (Nat.le_trans p hn)
    omega
  obtain ⟨t', rfl, ht0', -⟩ := replaced_ones ht0 htlen ht
  rw [value58_ones] at hs
  have q := bigBytes_noZero V'
  have text : IsBase58Text (List.replicate n 49 ++ t') (List.replicate n 0 ++ bigBytes V') :=
    ⟨n, t', bigBytes V', rfl, q.1, rfl, ht0', (numeral_iff _ _).mpr (by rw [q.2]; exact hs)⟩
  have hb0 : b ≠ 0 := by rintro rfl; simp at hb'
  rw [e1] at q3
  rcases hv with rfl | rfl
  · -- mainnet: one leading zero byte
    have hn : n = 1 := by
      rcases n with _ | _ | n
      · simp only [List.replicate_zero, List.nil_append] at hbytes
        rw [← hbytes] at hc0
        simp at hc0
      · rfl
      · simp only [List.replicate_succ, List.cons_append, List.cons.injEq] at hbytes
        exact absurd hbytes.2.1 hb0
    subst hn
    have z : (0 : UInt8).toNat = 0 := rfl
    rw [z] at q3
    have hlen : (bigBytes V').length = 24 := by
      have w1 : (256:Nat) ^ 23 = 2 ^ 184 := by norm_num
      have w2 : (256:Nat) ^ (23 + 1) = 2 ^ 192 := by norm_num
      exact bigBytes_length (by rw [w1]; omega) (by rw [w2]; omega)
    refine ⟨(bigBytes V').take 20, by simp [hlen], (C137_pays_iff _ _ (by simp [hlen])).mpr ⟨0, (bigBytes V').drop 20, Or.inl rfl, by simp [hlen], ?_⟩⟩
    rw [List.cons_append, List.take_append_drop]
    exact text
  · -- testnet: no leading zero byte
    have hn : n = 0 := by
      rcases n with _ | n
      · rfl
      · simp only [List.replicate_succ, List.cons_append, List.cons.injEq] at hbytes
        exact absurd hbytes.1 (by decide)
    subst hn
    have z : (0x6f : UInt8).toNat = 111 := rfl
    rw [z] at q3
    have hlen : (bigBytes V').length = 25 := by
      have w1 : (256:Nat) ^ 24 = 2 ^ 192 := by norm_num
      have w2 : (256:Nat) ^ (24 + 1) = 2 ^ 200 := by norm_num
      exact bigBytes_length (by rw [w1]; omega) (by rw [w2]; omega)
    obtain ⟨x, r', hx⟩ : ∃ x r', bigBytes V' = x :: r' := by
      cases hbb : bigBytes V' with
      | nil => rw [hbb] at hlen; simp at hlen
      | cons x r' => exact ⟨x, r', rfl⟩
    rw [hx] at hlen text q
    have hr24 : r'.length = 24 := by simpa using hlen
    have hx6 : x = 0x6f := by
      have q2 := q.2
      have := beNat_lt r'
      rw [hr24] at this
      rw [beNat_cons, hr24] at q2
      have w1 : (256:Nat) ^ 24 = 2 ^ 192 := by norm_num
      rw [w1] at this q2
      apply UInt8.toNat_inj.mp
      rw [z]
      omega
    subst hx6
    refine ⟨r'.take 20, by simp [hr24], (C137_pays_iff _ _ (by simp [hr24])).mpr ⟨0x6f, r'.drop 20, Or.inr rfl, by simp [hr24], ?_⟩⟩
    rw [List.cons_append, List.take_append_drop]
    exact text

/-- C137 (no checksum at all): for every key hash whose first byte is 2 to 254 and either network, each character of the address from the 31st to the 7th from its end can be mistyped,
and each of its 57 mistypings is paid, to another key hash. -/
theorem C137_violated (H : HashFns) (h : Bytes) (hl : h.length = 20) (b : UInt8) (hb : h.head? = some b) (hb' : 2 ≤ b.toNat ∧ b.toNat ≤ 254) (mainnet : Bool) (k : Nat) (hk : 6 ≤ k ∧ k ≤ 30) :
    ∃ (pre : Bytes) (c : UInt8) (post : Bytes), (Address.NewFromPublicKeyHash H h mainnet).AddressString = pre ++ c :: post ∧ post.length = k ∧
      ∀ c' ∈ alphabet, c' ≠ c → ∃ h', h'.length = 20 ∧ h' ≠ h ∧ PaysHash (pre ++ c' :: post) h' := by
  obtain ⟨a, ha⟩ : ∃ a, (Address.NewFromPublicKeyHash H h mainnet).AddressString = a := ⟨_, rfl⟩
  have hV := text_value (addressText H h mainnet)
  rw [ha] at hV
  have hlen : k < a.length := by
    by_contra hcon
    have l := value58_lt hV
    obtain ⟨e1, -, -⟩ := address_value (if mainnet then 0 else 0x6f) h ((H.sha256 (H.sha256 ((if mainnet then 0 else 0x6f) :: h))).take 4) hl (checksum_length H _)
    rw [e1] at l
    obtain ⟨r, rfl⟩ : ∃ r, h = b :: r := by
      cases h with
      | nil => simp at hb
      | cons x r => simp at hb; exact ⟨r, by rw [hb]⟩
    have hr19 : r.length = 19 := by simpa using hl
    rw [beNat_cons, hr19] at l
    have p : (58:Nat) ^ a.length ≤ 58 ^ 30 := Nat.pow_le_pow_right (by norm_num) (by omega)
    have p' : (58:Nat) ^ 30 ≤ 2 * 256 ^ 19 * 2 ^ 32 := by norm_num
    have : 2 * 256 ^ 19 ≤ b.toNat * 256 ^ 19 := Nat.mul_le_mul_right _ hb'.1
    omega
  obtain ⟨c, post, hdrop⟩ : ∃ c post, a.drop (a.length - (k + 1)) = c :: post := by
    cases hd : a.drop (a.length - (k + 1)) with
    | nil =>
      have := congrArg List.length hd
      simp at this
      omega
    | cons c post => exact ⟨c, post, rfl⟩
  have hpost : post.length = k := by
    have := congrArg List.length hdrop
    simp at this
    omega
  have hsplit : a = a.take (a.length - (k + 1)) ++ c :: post := by rw [← hdrop, List.take_append_drop]
  refine ⟨_, c, post, ha.trans hsplit, hpost, fun c' hc' hne => ?_⟩
  have hrep : Replaced (Address.NewFromPublicKeyHash H h mainnet).AddressString (a.take (a.length - (k + 1)) ++ c' :: post) k :=
    ⟨_, c, c', post, ha.trans hsplit, rfl, fun e => hne e.symm, hpost⟩
  have hnum : ∃ v, IsNumeral58 (a.take (a.length - (k + 1)) ++ c' :: post) v := by
    have hall : ∀ x ∈ alphabet, ∃ d : Fin 58, index58 x = some d.val := by decide +kernel
    obtain ⟨d, hd⟩ := hall c' hc'
    rw [hsplit] at hV
    obtain ⟨p, d0, w, -, -, -, hv⟩ := value58_around hV
    exact ⟨_, (numeral_iff _ _).mpr (hv c' d.val hd)⟩
  obtain ⟨h1, hl1, hp1⟩ := C137_never_refused H h hl b hb hb' mainnet _ k hk.2 hrep hnum
  rcases C137_elsewhere H h hl mainnet _ k (Or.inl ⟨hrep, hk.1⟩) with hr | hr
  · exfalso
    obtain ⟨e, he⟩ := hr Transaction.New 0
    rw [hp1 Transaction.New 0] at he
    exact absurd he (by simp)
  · exact hr

/-- A payment stays affordable when an address in it is exchanged for any text that `PayTo` does not refuse. -/
theorem C137_affordable (W : List WalletCoin) (spend : List WalletCoin) (p1 p2 : List (Bytes × UInt64)) (a s : Bytes) (x : UInt64) (hp : Affordable W ⟨spend, p1 ++ (a, x) :: p2⟩) (hs : ¬ Refuses s) :
    Affordable W ⟨spend, p1 ++ (s, x) :: p2⟩ := by
  have hlike : IsAddressLike s := by
    by_contra hn
    obtain ⟨e, he⟩ := (p2pkhAddress_eq s).2 hn
    exact hs fun tx sats => ⟨e, by simp [Transaction.PayTo, Output.NewP2PKHFromAddress, he]⟩
  refine ⟨hp.spend, ⟨by simp, ?_⟩, by simpa using hp.size, hp.range, by simpa using hp.funded⟩
  intro q hq
  rcases List.mem_append.mp hq with hq | hq
  · exact hp.pay.2 q (List.mem_append.mpr (Or.inl hq))
  · rcases List.mem_cons.mp hq with rfl | hq
    · exact hlike
    · exact hp.pay.2 q (List.mem_append.mpr (Or.inr (List.mem_cons_of_mem _ hq)))

/-- C137 (lost): Alice pays `x` to a text that pays a hash of nobody's key, and the change to herself. The node accepts the payment: `x` is gone from her balance, Bob's balance — whatever keys
he has — is what it was, and the `x` are in an unspent output that can be spent only with a public key of that hash. -/
theorem C137_lost (H : HashFns) (verify : Bytes → Bytes → Bytes → Bool) (alice bob : List InternalSigner) (hg : ∀ is ∈ alice, GoodSigner verify is) (L : Ledger) (A B : List WalletCoin)
    (hA : Sees (keyHashes H alice) A L) (hB : Sees (keyHashes H bob) B L) (hd : ∀ h ∈ keyHashes H alice, h ∉ keyHashes H bob)
    (s own h' ha : Bytes) (hs : PaysHash s h') (hl' : h'.length = 20) (hnot : h' ∉ keyHashes H alice ∧ h' ∉ keyHashes H bob) (hown : PaysHash own ha ∧ ha ∈ keyHashes H alice)
    (spend : List WalletCoin) (x change : UInt64) (hp : Affordable A ⟨spend, [(s, x), (own, change)]⟩) :
    ∃ A' b, walletStep H alice A (.pay ⟨spend, [(s, x), (own, change)]⟩) = .ok (A', b) ∧
      (b.length ≤ maxTxBytes → (∀ n < 2 ^ 32, L (H.sha256 (H.sha256 b) ++ leBytes 4 n) = none) → ∃ L', NodeAccepts H verify L b L') ∧
      ∀ L', NodeAccepts H verify L b L' →
        (∃ fee, balance spend = x.toNat + change.toNat + fee ∧ balance A = balance A' + x.toNat + fee) ∧
        (∃ B', walletStep H bob B (.seen b) = .ok (B', b) ∧ Sees (keyHashes H bob) B' L' ∧ balance B' = balance B) ∧
        (∃ key, L' key = some ⟨x, p2pkh h'⟩) ∧
        ∀ tx k, Accepted H verify tx k (p2pkh h') x → ∃ (inp : Input) (unl : Bytes) (before : List Bytes) (item pub : Bytes), tx.Inputs[k]? = some inp ∧ inp.UnlockingScript = some unl ∧
          Pushes unl (before ++ [item, pub]) ∧ H.ripemd160 (H.sha256 pub) = h' := by
  have scr : ∀ {t h}, PaysHash t h → NewP2PKHFromAddress t = .ok (p2pkh h) := by
    intro t h ht
    have h1 := ht Transaction.New 0
    simp only [Transaction.PayTo, Output.NewP2PKHFromAddress] at h1
    cases hn : NewP2PKHFromAddress t with
    | err e => rw [hn] at h1; exact absurd h1 (by simp)
    | panic => rw [hn] at h1; exact absurd h1 (by simp)
    | ok r =>
      rw [hn] at h1
      simp [Transaction.AddOutput] at h1
      rw [h1]
  have hdest := scr hs
  have hown1 := scr hown.1
  obtain ⟨A', b, s1, s2, s3, s4⟩ := C120_pay H verify alice hg L A hA _ hp
  refine ⟨A', b, s1, s3, fun L' hL => ?_⟩
  obtain ⟨B', tx, t1, t2, t3, t4⟩ := C120_seen H verify bob L L' B hB b hL
  obtain ⟨c1, c2, c3, c4, c5, c6⟩ := payment_calls hA.1 hp
  obtain ⟨tx0, tx', h1, h2, h3, h4, h5, h6⟩ := C115_payment H verify alice hg L _ c1 (by simpa [Payment.calls] using hp.size)
  have hb : b = tx'.ToBytes := by
    simp only [walletStep, h1, Res.ok_bind, h2] at s1
    injection s1 with e
    injection e with e1 e2
    exact e2.symm
  have hL0 := hL
  rw [hb] at hL
  have hfr := hL.2.1
  have hinj : ∀ w ∈ A, ∀ v ∈ A, w.key = v.key → w = v := fun w hw v hv e => List.inj_on_of_nodup_map hA.1.1 hw hv e
  have hspk : (spend.map WalletCoin.key).Nodup := hp.spend.2.1.map_on fun w hw v hv e => hinj w (hp.spend.2.2 w hw) v (hp.spend.2.2 v hv) e
  have hS := sees_after H hB tx' (by rw [h3, c5]; simp) hfr (fun w => decide (w.key ∉ tx'.Inputs.map outpoint)) fun w _ => by simp
  rw [← h6 L' hL] at hS
  have p1 : ¬ PaysTo (keyHashes H bob) (p2pkh h') := by
    intro hp
    obtain ⟨h, hm, e⟩ := List.mem_map.mp hp
    exact hnot.2 (p2pkh_inj e ▸ hm)
  have p2 : ¬ PaysTo (keyHashes H bob) (p2pkh ha) := by
    intro hp
    obtain ⟨h, hm, e⟩ := List.mem_map.mp hp
    exact hd ha hown.2 (p2pkh_inj e ▸ hm)
  have p3 : ¬ PaysTo (keyHashes H alice) (p2pkh h') := by
    intro hp
    obtain ⟨h, hm, e⟩ := List.mem_map.mp hp
    exact hnot.1 (p2pkh_inj e ▸ hm)
  have p4 : PaysTo (keyHashes H alice) (p2pkh ha) := List.mem_map.mpr ⟨_, hown.2, rfl⟩
  have hbal : balance B' = balance B := by
    rw [(C120_owns _ _ L' hS).2 _ (C120_owns _ _ L' t3).1, balance_append, received_balance, payment_paid _ _ hp.pay.2 tx' h3]
    have ht := taken_balance hB tx' (by rw [h4, c2]; exact hspk) (fun w => decide (w.key ∉ tx'.Inputs.map outpoint)) fun w _ => by simp
    rw [taken_other hA.1 hd tx' spend hp.spend.2.2 (by rw [h4, c2]), Nat.add_zero] at ht
    rw [ht]
    simp [paidBack, hdest, hown1, p1, p2]
  have hback : paidBack (keyHashes H alice) ⟨spend, [(s, x), (own, change)]⟩ = change.toNat := by simp [paidBack, hdest, hown1, p3, p4]
  have hf := hp.funded
  rw [hback] at s2
  simp only [List.map_cons, List.map_nil, List.sum_cons, List.sum_nil, Nat.add_zero] at hf
  change x.toNat + change.toNat ≤ balance spend at hf
  change balance A' + balance spend = balance A + change.toNat at s2
  refine ⟨⟨balance spend - (x.toNat + change.toNat), by omega, by omega⟩, ⟨B', t1, t3, hbal⟩, ?_, ?_⟩
  · refine ⟨H.sha256 (H.sha256 tx'.ToBytes) ++ leBytes 4 0, ?_⟩
    rw [h6 L' hL]
    obtain ⟨o, ho⟩ : ∃ o rest, tx'.Outputs = o :: rest ∧ o = ⟨x, p2pkh h'⟩ := by
      obtain ⟨f, g1, g2⟩ := payment_outs ⟨spend, [(s, x), (own, change)]⟩ hp.pay.2
      rw [h3, g2]
      have := g1 (s, x) (by simp)
      simp only at this
      rw [hdest] at this
      injection this with this
      exact ⟨_, _, rfl, by simp [← this]⟩
    obtain ⟨rest, ho, rfl⟩ := ho
    simp [Ledger.after, created, ho]
  · intro tx k hacc
    obtain ⟨inp, unl, before, item, pub, q1, q2, q3, q4, -⟩ := (C83_p2pkh_iff H verify tx k h' hl' x).mp hacc
    exact ⟨inp, unl, before, item, pub, q1, q2, q3, q4⟩

/-! ## Examples -/

/-- An address, and the text with its tenth character mistyped. -/
def typoAddr : Bytes := (Address.NewFromPublicKeyHash toyH (List.replicate 20 7) true).AddressString

def typoText : Bytes := typoAddr.take 9 ++ (if typoAddr.getD 9 0 = 120 then 121 else 120) :: typoAddr.drop 10

example : Replaced typoAddr typoText 23 ∧ (∃ v, IsNumeral58 typoText v) ∧ ValidateAddress toyH typoText = .err "checksum failed" ∧
    ∃ h', h'.length = 20 ∧ h' ≠ List.replicate 20 7 ∧ PaysHash typoText h' := by
  have hr : Replaced typoAddr typoText 23 := ⟨typoAddr.take 9, typoAddr.getD 9 0, _, typoAddr.drop 10, by decide +kernel, rfl, by decide +kernel, by decide +kernel⟩
  have hv : ∃ v, IsNumeral58 typoText v := by
    have : (value58 0 typoText).isSome = true := by decide +kernel
    obtain ⟨v, hv⟩ := Option.isSome_iff_exists.mp this
    exact ⟨v, (numeral_iff _ _).mpr hv⟩
  refine ⟨hr, hv, by decide +kernel, ?_⟩
  obtain ⟨h1, hl1, hp1⟩ := C137_never_refused toyH (List.replicate 20 7) (by decide) 7 rfl (by decide) true typoText 23 (by decide) hr hv
  rcases C137_elsewhere toyH (List.replicate 20 7) (by decide) true typoText 23 (Or.inl ⟨hr, by decide⟩) with hx | hx
  · exfalso
    obtain ⟨e, he⟩ := hx Transaction.New 0
    rw [hp1 Transaction.New 0] at he
    exact absurd he (by simp)
  · exact hx

/-- The same address with two neighbours exchanged. -/
def swapText : Bytes := typoAddr.take 9 ++ typoAddr.getD 10 0 :: typoAddr.getD 9 0 :: typoAddr.drop 11

example : Swapped typoAddr swapText 22 ∧ ∃ h', h'.length = 20 ∧ h' ≠ List.replicate 20 7 ∧ PaysHash swapText h' := by
  have hr : Swapped typoAddr swapText 22 := ⟨typoAddr.take 9, typoAddr.getD 9 0, typoAddr.getD 10 0, typoAddr.drop 11, by decide +kernel, rfl, by decide +kernel, by decide +kernel⟩
  refine ⟨hr, ?_⟩
  rcases C137_elsewhere toyH (List.replicate 20 7) (by decide) true swapText 22 (Or.inr ⟨hr, by decide⟩) with hx | hx
  · exfalso
    have hlike : IsAddressLike swapText := by decide +kernel
    obtain ⟨e, he⟩ := hx Transaction.New 0
    simp [Transaction.PayTo, Output.NewP2PKHFromAddress, (p2pkhAddress_eq swapText).1 hlike] at he
  · exact hx

/-- Another address. -/
def luckyAddr : Bytes := (Address.NewFromPublicKeyHash toyH (List.replicate 20 9) true).AddressString

/-- A typo that the check does not find (the checksum of the toy hash is weak). -/
def luckyText : Bytes := luckyAddr.take 5 ++ 49 :: luckyAddr.drop 6

example : Replaced luckyAddr luckyText 27 ∧ ValidateAddress toyH luckyText = .ok true ∧
    ∃ h' mainnet', h'.length = 20 ∧ h' ≠ List.replicate 20 9 ∧ PaysHash luckyText h' ∧ luckyText = (Address.NewFromPublicKeyHash toyH h' mainnet').AddressString := by
  have hr : Replaced luckyAddr luckyText 27 := ⟨luckyAddr.take 5, luckyAddr.getD 5 0, 49, luckyAddr.drop 6, by decide +kernel, rfl, by decide +kernel, by decide +kernel⟩
  have hv : ValidateAddress toyH luckyText = .ok true := by decide +kernel
  refine ⟨hr, hv, ?_⟩
  rcases C137_careful toyH (List.replicate 20 9) (by decide) true luckyText 27 (Or.inl hr) hv with hx | hx
  · exfalso
    have hlike : IsAddressLike luckyText := by decide +kernel
    obtain ⟨e, he⟩ := hx Transaction.New 0
    simp [Transaction.PayTo, Output.NewP2PKHFromAddress, (p2pkhAddress_eq luckyText).1 hlike] at he
  · exact hx

/-- A typo in the last character is paid to the same hash. -/
def lateText : Bytes := typoAddr.dropLast ++ [if typoAddr.getLast? = some 120 then 121 else 120]

example : Replaced typoAddr lateText 0 ∧ PaysHash lateText (List.replicate 20 7) ∧ ValidateAddress toyH lateText = .err "checksum failed" := by
  refine ⟨⟨typoAddr.dropLast, typoAddr.getLast?.getD 0, _, [], by decide +kernel, rfl, by decide +kernel, rfl⟩, ?_, by decide +kernel⟩
  exact (C137_pays_iff _ _ (by decide)).mpr ⟨0, (base58Decode lateText).drop 21, Or.inl rfl, by decide +kernel, (base58Encode_text _ _).mpr (by decide +kernel)⟩

/-- Bob's address, with its tenth character mistyped, and the hash that this pays. -/
def bobTypo : Bytes :=
  let a := (Address.NewFromPublicKey toyH exBob.pubKey true).AddressString
  a.take 9 ++ (if a.getD 9 0 = 120 then 121 else 120) :: a.drop 10

def bobTypoHash : Bytes := ((base58Decode bobTypo).drop 1).take 20

/-- Twenty for Bob, sixty back — with the typo. -/
example : ∃ A' b L', walletStep toyH [toySigner] [exCoin] (.pay ⟨[exCoin], [(bobTypo, 20), ((Address.NewFromPublicKey toyH toySigner.pubKey true).AddressString, 60)]⟩) = .ok (A', b) ∧
    NodeAccepts toyH toyVerify exLedger b L' ∧ (∃ B', walletStep toyH [exBob] [] (.seen b) = .ok (B', b) ∧ balance B' = 0) ∧ balance A' = 60 := by
  have hA : Affordable [exCoin] ⟨[exCoin], [(bobTypo, 20), ((Address.NewFromPublicKey toyH toySigner.pubKey true).AddressString, 60)]⟩ :=
    ⟨⟨by simp, by simp, by simp⟩, ⟨by simp, by decide +kernel⟩, by decide +kernel, by decide +kernel, by decide +kernel⟩
  have hd : ∀ h ∈ keyHashes toyH [toySigner], h ∉ keyHashes toyH [exBob] := by decide +kernel
  have hB : Sees (keyHashes toyH [exBob]) [] exLedger := by
    rw [C120_start]
    intro key c h hp
    unfold exLedger at h
    split_ifs at h
    injection h with h
    rw [← h] at hp
    obtain ⟨h', hm', e⟩ := List.mem_map.mp hp
    exact hd _ (List.mem_map.mpr ⟨toySigner, by simp, rfl⟩) (p2pkh_inj e ▸ hm')
  have hs : PaysHash bobTypo bobTypoHash := (C137_pays_iff _ _ (by decide +kernel)).mpr ⟨0, (base58Decode bobTypo).drop 21, Or.inl rfl, by decide +kernel, (base58Encode_text _ _).mpr (by decide +kernel)⟩
  have ho : PaysHash (Address.NewFromPublicKey toyH toySigner.pubKey true).AddressString (toyH.ripemd160 (toyH.sha256 toySigner.pubKey)) :=
    (C137_pays_iff _ _ (by decide +kernel)).mpr ⟨0, (base58Decode (Address.NewFromPublicKey toyH toySigner.pubKey true).AddressString).drop 21, Or.inl rfl, by decide +kernel,
      (base58Encode_text _ _).mpr (by decide +kernel)⟩
  obtain ⟨A', b, s1, s2, s3⟩ := C137_lost toyH toyVerify [toySigner] [exBob] (by simpa using toySigner_good) exLedger [exCoin] [] exSees hB hd bobTypo _ bobTypoHash _ hs (by decide +kernel)
    ⟨by decide +kernel, by decide +kernel⟩ ⟨ho, List.mem_map.mpr ⟨toySigner, by simp, rfl⟩⟩ [exCoin] 20 60 hA
  have hf : (match walletStep toyH [toySigner] [exCoin] (.pay ⟨[exCoin], [(bobTypo, 20), ((Address.NewFromPublicKey toyH toySigner.pubKey true).AddressString, 60)]⟩) with
      | .ok r => decide (r.2.length ≤ maxTxBytes ∧ toyH.sha256 (toyH.sha256 r.2) ≠ List.replicate 32 17)
      | _ => false) = true := by decide +kernel
  rw [s1] at hf
  have hf := of_decide_eq_true hf
  have hk : exCoin.key = List.replicate 32 17 ++ leBytes 4 1 := by decide +kernel
  obtain ⟨L', hL⟩ := s2 hf.1 (by
    intro n _
    unfold exLedger
    rw [if_neg]
    rw [hk]
    intro e
    exact hf.2 (List.append_inj_left e (by simp [toyH.sha256_length])))
  obtain ⟨⟨fee, f1, f2⟩, ⟨B', b1, -, b3⟩, -, -⟩ := s3 L' hL
  refine ⟨A', b, L', s1, hL, ⟨B', b1, b3⟩, ?_⟩
  have e1 : balance [exCoin] = 90 := by decide +kernel
  have e2 : (20 : UInt64).toNat = 20 ∧ (60 : UInt64).toNat = 60 := by decide
  omega

end Verif.Props
