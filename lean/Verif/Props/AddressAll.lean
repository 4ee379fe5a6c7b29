import Verif.Props.Address
import Verif.Props.Text
/-!
# C99: the address constructors on every input
-/
namespace Verif.Props
open Verif Verif.Spec

/-- The version byte of a network. -/
def networkVersion (mainnet : Bool) : UInt8 := if mainnet then 0x00 else 0x6f

/-- C99: `Base58EncodeMissingChecksum` of any bytes is the canonical base58 text of the bytes and the first four of their double SHA256; different bytes have different texts. -/
theorem C99_withChecksum (H : HashFns) (b b' : Bytes) :
    IsBase58Text (Base58EncodeMissingChecksum H b) (b ++ (H.sha256 (H.sha256 b)).take 4) ∧
    (Base58EncodeMissingChecksum H b = Base58EncodeMissingChecksum H b' → b = b') := by
  constructor
  · rw [base58Encode_text]; rfl
  · intro h
    have h1 := base58Encode_inj h
    have hl : ∀ x, (checksum H x).length = 4 := fun x => by
      unfold checksum Sha256d Sha256
      rw [List.length_take, H.sha256_length]; rfl
    exact (List.append_inj' h1 (by rw [hl, hl])).1

/-- C99: `NewFromPublicKeyHash` for a hash of any length: the text of version, hash and checksum, and the hash in hex. Hashes of any two lengths and networks with the same address are the same. -/
theorem C99_fromHash (H : HashFns) (hash hash' : Bytes) (mainnet mainnet' : Bool) :
    IsBase58Text (Address.NewFromPublicKeyHash H hash mainnet).AddressString
      (networkVersion mainnet :: hash ++ (H.sha256 (H.sha256 (networkVersion mainnet :: hash))).take 4) ∧
    (Address.NewFromPublicKeyHash H hash mainnet).PublicKeyHash = hexEncode hash ∧
    ((Address.NewFromPublicKeyHash H hash mainnet).AddressString = (Address.NewFromPublicKeyHash H hash' mainnet').AddressString → hash = hash' ∧ mainnet = mainnet') := by
  have e : ∀ h m, (Address.NewFromPublicKeyHash H h m).AddressString = Base58EncodeMissingChecksum H (networkVersion m :: h) := by
    intro h m; cases m <;> rfl
  refine ⟨?_, rfl, ?_⟩
  · rw [e]; exact (C99_withChecksum H _ []).1
  · rw [e, e]
    intro h
    have := (C99_withChecksum H _ _).2 h
    simp only [List.cons.injEq] at this
    refine ⟨this.2, ?_⟩
    have h' := this.1
    revert h'
    cases mainnet <;> cases mainnet' <;> simp [networkVersion]

/-- C99 (deviation): the length of the hash is not checked. An address made from a hash that is not 20 bytes long is returned without an error, but `NewFromString` refuses it, and with it
`NewP2PKHFromAddress` and `PayTo`. -/
theorem C99_wrong_length (H : HashFns) (hash : Bytes) (mainnet : Bool) (hl : hash.length ≠ 20) (tx : Transaction) (sats : UInt64) :
    (Address.NewFromString (Address.NewFromPublicKeyHash H hash mainnet).AddressString).isErr ∧
    (NewP2PKHFromAddress (Address.NewFromPublicKeyHash H hash mainnet).AddressString).isErr ∧
    (Transaction.PayTo tx (Address.NewFromPublicKeyHash H hash mainnet).AddressString sats).isErr := by
  have hcl : ∀ x, (checksum H x).length = 4 := fun x => by
    unfold checksum Sha256d Sha256
    rw [List.length_take, H.sha256_length]; rfl
  have hd : ∃ v : UInt8, base58Decode (Address.NewFromPublicKeyHash H hash mainnet).AddressString = v :: hash ++ checksum H (v :: hash) :=
    ⟨_, base58_roundtrip _⟩
  obtain ⟨v, hd⟩ := hd
  have h1 : addressToPubKeyHashStr (Address.NewFromPublicKeyHash H hash mainnet).AddressString = .err "invalid address length" := by
    unfold addressToPubKeyHashStr
    dsimp only
    rw [hd, if_pos]
    rw [List.length_append, hcl, List.length_cons]; omega
  have h2 : Address.NewFromString (Address.NewFromPublicKeyHash H hash mainnet).AddressString = .err "invalid address length" := by
    unfold Address.NewFromString; rw [h1]; rfl
  have h3 : NewP2PKHFromAddress (Address.NewFromPublicKeyHash H hash mainnet).AddressString = .err "invalid address length" := by
    unfold NewP2PKHFromAddress; rw [h2]; rfl
  refine ⟨by rw [h2]; rfl, by rw [h3]; rfl, ?_⟩
  unfold Transaction.PayTo Output.NewP2PKHFromAddress
  rw [h3]; rfl

example : (Address.NewFromString (Address.NewFromPublicKeyHash toyH [1, 2, 3] true).AddressString).isErr := (C99_wrong_length toyH [1, 2, 3] true (by simp) ⟨1, [], [], 0⟩ 0).1

/-- C99: `NewFromPublicKeyString`, every outcome: the hex text of any bytes, in either case, gives the address of their HASH160 (no key is checked); any other text an error. -/
theorem C99_fromKeyString (H : HashFns) (t : Bytes) (mainnet : Bool) :
    (∀ a, Address.NewFromPublicKeyString H t mainnet = .ok a ↔
      ∃ pk, HexText t ∧ hexEncode pk = t.map lowerChar ∧ a = Address.NewFromPublicKeyHash H (H.ripemd160 (H.sha256 pk)) mainnet) ∧
    ((Address.NewFromPublicKeyString H t mainnet).isErr ↔ ¬ HexText t) ∧ Address.NewFromPublicKeyString H t mainnet ≠ .panic := by
  have key := fun s => C73_parse_iff t s
  have e : Script.NewFromHexString t = hexDecodeRes t := by
    unfold Script.NewFromHexString
    cases hexDecodeRes t <;> rfl
  simp only [e] at key
  obtain ⟨-, h2, h3⟩ := key []
  refine ⟨?_, ?_, ?_⟩
  · intro a
    unfold Address.NewFromPublicKeyString
    rw [Res.bind_eq_ok]
    constructor
    · rintro ⟨pk, h, ha⟩
      obtain ⟨g1, g2⟩ := (key pk).1.mp h
      simp only [Res.pure_eq, Res.ok.injEq] at ha
      exact ⟨pk, g1, g2, ha.symm⟩
    · rintro ⟨pk, g1, g2, rfl⟩
      exact ⟨pk, (key pk).1.mpr ⟨g1, g2⟩, rfl⟩
  · rw [← h2]
    unfold Address.NewFromPublicKeyString
    cases hexDecodeRes t <;> simp [bind, Res.bind, pure, Res.isErr]
  · unfold Address.NewFromPublicKeyString
    rw [Ne, Res.bind_eq_panic]
    rintro (h | ⟨_, _, h⟩)
    · exact h3 h
    · cases h

/-- C99: `NewFromPublicKey` is the address of the HASH160 of the compressed key. -/
theorem C99_fromKey (H : HashFns) (pk : Bytes) (mainnet : Bool) :
    Address.NewFromPublicKey H pk mainnet = Address.NewFromPublicKeyHash H (H.ripemd160 (H.sha256 pk)) mainnet := rfl

example : (Address.NewFromPublicKeyString toyH b!"02aB" true).isOk ∧ (Address.NewFromPublicKeyString toyH b!"02a" true).isErr ∧ (Address.NewFromPublicKeyString toyH [] true).isOk := by
  decide +kernel

end Verif.Props
