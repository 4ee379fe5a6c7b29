import Verif.Props.Bip276Decode
import Verif.Props.Target
import Verif.Props.Difficulty
import Verif.Props.Encryption
import Verif.Props.Utils
import Verif.Props.TxPanic
import Verif.Props.SigHash
import Verif.Props.Redeem
/-!
# C109: which calls can panic
-/
namespace Verif.Props
open Verif Spec Transaction

/-! ## Calls that never panic -/

theorem never_bind {α β : Type} {x : Res α} {f : α → Res β} (hx : x ≠ .panic) (hf : ∀ a, x = .ok a → f a ≠ .panic) : x >>= f ≠ .panic := by
  rw [ne_eq, Res.bind_eq_panic]
  rintro (h | ⟨a, ha, h⟩)
  · exact hx h
  · exact hf a ha h

theorem never_appendPushData (s : Script) (d : Bytes) : AppendPushData s d ≠ .panic := never_bind (encodeParts_not_panic _) fun _ _ h => nomatch h
theorem never_appendHex (s : Script) (t : Bytes) : AppendPushDataHexString s t ≠ .panic := never_bind (hexDecodeRes_not_panic _) fun _ _ => never_appendPushData _ _
theorem never_appendArray (s : Script) (d : List Bytes) : AppendPushDataArray s d ≠ .panic := never_bind (encodeParts_not_panic _) fun _ _ h => nomatch h

theorem never_asm (l : List Bytes) : ∀ s, asmLoop s l ≠ .panic := by
  induction l with
  | nil => intro s h; cases h
  | cons a l ih =>
    intro s
    rw [asmLoop]
    split
    · exact ih _
    · split
      · exact ih _
      · intro h; cases h

theorem never_address (a : Bytes) : Address.NewFromString a ≠ .panic := by
  refine never_bind ?_ fun _ _ h => nomatch h
  unfold addressToPubKeyHashStr
  dsimp only
  split_ifs <;> (intro h; cases h)

theorem never_p2pkhAddress (a : Bytes) : NewP2PKHFromAddress a ≠ .panic :=
  never_bind (never_address a) fun _ _ => never_bind (hexDecodeRes_not_panic _) fun _ _ => never_bind (never_appendPushData _ _) fun _ _ h => nomatch h

theorem never_merkleLoop (H : HashFns) (bs : List Bytes) : ∀ (h : Bytes) (i : Int), merkleLoop H h i bs ≠ .panic := by
  induction bs with
  | nil => intro h i e; cases e
  | cons b bs ih => intro h i; exact never_bind (hexDecodeRes_not_panic _) fun _ _ => ih _ _

/-- C109: building scripts, whatever the texts and data, never panics. -/
theorem C109_scripts (H : HashFns) (s : Script) (d t : Bytes) (ds : List Bytes) :
    Script.NewFromHexString t ≠ .panic ∧ NewFromASM t ≠ .panic ∧ AppendPushData s d ≠ .panic ∧ AppendPushDataHexString s t ≠ .panic ∧ AppendPushDataString s t ≠ .panic ∧
    AppendPushDataArray s ds ≠ .panic ∧ AppendPushDataStrings s ds ≠ .panic ∧ EncodeParts ds ≠ .panic ∧ GetPushDataPrefix d ≠ .panic ∧
    NewP2PKHFromPubKeyStr H t ≠ .panic ∧ NewP2PKHFromPubKeyHashStr t ≠ .panic ∧ NewP2PKHFromAddress t ≠ .panic := by
  refine ⟨hexDecodeRes_not_panic t, never_asm _ _, never_appendPushData _ _, never_appendHex _ _, never_appendPushData _ _, never_appendArray _ _,
    never_appendArray _ _, encodeParts_not_panic _, ?_, never_bind (hexDecodeRes_not_panic _) (fun _ _ h => nomatch h),
    never_bind (hexDecodeRes_not_panic _) (fun _ _ h => nomatch h), never_p2pkhAddress _⟩
  unfold GetPushDataPrefix
  dsimp only
  split_ifs <;> (intro h; cases h)

/-- C109: building outputs and transactions never panics. -/
theorem C109_outputs (H : HashFns) (tx : Transaction) (a t secret d : Bytes) (ds : List Bytes) (v : UInt64) (n : UInt32) :
    Output.NewP2PKHFromAddress a v ≠ .panic ∧ Output.NewP2PkhFromPubKeyHash t v ≠ .panic ∧ Output.NewHashPuzzle H secret t v ≠ .panic ∧
    Output.NewOpReturn d ≠ .panic ∧ Output.NewOpReturnParts ds ≠ .panic ∧ From tx t n a v ≠ .panic ∧ PayTo tx a v ≠ .panic := by
  have h1 : Output.NewP2PKHFromAddress a v ≠ .panic := never_bind (never_p2pkhAddress _) fun _ _ h => nomatch h
  have h2 : ∀ ds, Output.NewOpReturnParts ds ≠ .panic := fun ds => never_bind (never_appendArray _ _) fun _ _ h => nomatch h
  refine ⟨h1, never_bind (C109_scripts H [] [] t []).2.2.2.2.2.2.2.2.2.2.1 (fun _ _ h => nomatch h), ?_, h2 [d], h2 ds,
    never_bind (C109_scripts H [] [] a []).1 (fun _ _ h => nomatch h), never_bind h1 (fun _ _ h => nomatch h)⟩
  exact never_bind (hexDecodeRes_not_panic _) fun _ _ => never_bind (never_appendPushData _ _) fun _ _ => never_bind (never_appendPushData _ _) fun _ _ h => nomatch h

/-- C109: reading addresses and keys, Merkle proofs, building coinbases and reading their parts, base64 and the encryption with a 16-byte block cipher never panic. -/
theorem C109_others (H : HashFns) (a t : Bytes) (net : Bool) (idx : Int) (bs : List Bytes) (height : UInt32) (v : UInt64) (w x y : Bytes) (m : Int)
    (ciph : BlockCipher) (h16 : ciph.BlockSize = 16) (random : Option Bytes) :
    Address.NewFromString a ≠ .panic ∧ Address.NewFromPublicKeyString H t net ≠ .panic ∧ MerkleRootFromBranches H t idx bs ≠ .panic ∧
    GetCoinbaseParts height v w t a y ≠ .panic ∧ NewRedeemScript m ≠ .panic ∧ Encrypt ciph random x ≠ .panic ∧ (Decrypt ciph x).1 ≠ .panic := by
  refine ⟨never_address a, never_bind (hexDecodeRes_not_panic _) (fun _ _ h => nomatch h), ?_, ?_, ?_, ?_, (C62_total ciph h16 x).1⟩
  · refine never_bind (hexDecodeRes_not_panic _) fun _ _ => never_bind (never_merkleLoop H _ _ _) ?_
    rintro ⟨h, i⟩ _
    dsimp only
    split_ifs <;> (intro h; cases h)
  · refine never_bind ?_ (fun _ _ h => nomatch h)
    refine never_bind (C109_outputs H ⟨0, [], [], 0⟩ a [] [] [] [] v 0).1 fun o _ => ?_
    dsimp only
    split_ifs
    · exact never_bind (hexDecodeRes_not_panic w) (by intro _ _ h; cases h)
    · exact never_bind (hexDecodeRes_not_panic w) (by intro _ _ h; cases h)
    · intro h; cases h
    · intro h; cases h
  · unfold NewRedeemScript
    split_ifs <;> (intro h; cases h)
  · unfold Encrypt
    cases random with
    | none => intro h; cases h
    | some iv => dsimp only; rw [if_neg (by simp [h16])]; intro h; cases h

/-- C109: adding a public key panics only if the key library does. -/
theorem C109_addPublicKey (hd : HDKeychain) (h1 : ∀ s, hd.newKeyFromString s ≠ .panic) (h2 : ∀ k n, hd.child k n ≠ .panic) (h3 : ∀ k, hd.ecPubKey k ≠ .panic)
    (rs : RedeemScript) (key : Bytes) (path : List UInt32) : AddPublicKey hd rs key path ≠ .panic := by
  unfold AddPublicKey
  split_ifs
  · intro h; cases h
  · refine never_bind ?_ (fun _ _ h => nomatch h)
    exact never_bind (h1 _) fun _ _ => never_bind (h2 _ _) fun _ _ => never_bind (h2 _ _) fun _ _ => h3 _

/-! ## Calls that can panic, and exactly when -/

theorem hexDecodeSlice_cases (extra s : Bytes) : (IsHex s ∧ hexDecodeSlice extra s = .ok ⟨hexDecodeIgnore s, s.drop (s.length / 2) ++ extra⟩) ∨ (¬ IsHex s ∧ ∃ e, hexDecodeSlice extra s = .err e) := by
  by_cases h : IsHex s
  · left
    refine ⟨h, ?_⟩
    have h1 := hexDecode_isHex h
    have h2 := hexDecodeIgnore_length h
    have h3 : s.length / 2 = (hexDecodeIgnore s).length := by omega
    rw [h3]
    unfold hexDecodeSlice hexDecodeIgnore
    rcases hd : hexDecode s with ⟨b, _ | e⟩
    · rfl
    · rw [hd] at h1; cases h1
  · right
    refine ⟨h, ?_⟩
    obtain ⟨e, he⟩ := hexDecodeRes_not_isHex h
    unfold hexDecodeRes at he
    unfold hexDecodeSlice
    rcases hd : hexDecode s with ⟨b, _ | e'⟩
    · rw [hd] at he; cases he
    · exact ⟨e', rfl⟩

/-- C109: a hex text makes the script splitter or the transaction reader panic exactly when the bytes it stands for do (`C10_panic_iff`, `C36_transaction_panic_iff`); text that is not hex never does. -/
theorem C109_hex (extra t : Bytes) :
    (DecodeStringParts t = .panic ↔ IsHex t ∧ DecodeParts (hexDecodeIgnore t) = .panic) ∧
    (Transaction.NewFromString extra t = .panic ↔ IsHex t ∧ Transaction.NewFromBytes ⟨hexDecodeIgnore t, t.drop (t.length / 2) ++ extra⟩ = .panic) ∧
    (Decode32Byte extra t = .panic ↔ IsHex t ∧ t.length + extra.length < 32) := by
  refine ⟨?_, ?_, ?_⟩
  · by_cases h : IsHex t
    · unfold DecodeStringParts
      rw [hexDecodeRes_isHex h, Res.ok_bind]; simp [h]
    · obtain ⟨e, he⟩ := hexDecodeRes_not_isHex h
      unfold DecodeStringParts
      rw [he]; simp [h]
  · unfold Transaction.NewFromString
    rcases hexDecodeSlice_cases extra t with ⟨h, e⟩ | ⟨h, m, e⟩
    · rw [e, Res.ok_bind]; simp [h]
    · rw [e]; simp [h]
  · obtain ⟨h1, h2, h3⟩ := C06_decode32 extra t
    constructor
    · intro e
      by_cases h : IsHex t
      · refine ⟨h, ?_⟩
        by_contra hc
        rw [h2 h (by omega)] at e; cases e
      · have := h1 h; rw [e] at this; cases this
    · rintro ⟨h, hl⟩; exact h3 h hl

/-- C109: validating an address panics exactly on texts that begin with `bitcoin-script:` and do not have the BIP276 shape. -/
theorem C109_validate (H : HashFns) (t : Bytes) :
    ValidateAddress H t = .panic ↔ bip276Prefix <+: t ∧ ¬ ∃ pfx d1 d2 hx cs, IsBip276Text t pfx d1 d2 hx cs := by
  by_cases h : bip276Prefix <+: t
  · rw [(C100_validate H t h).2.1]; simp [h]
  · have := (C24_validate_iff H t h).2.1
    simp [h, this]

/-- C109: the remaining calls. Encryption panics only with a cipher whose blocks are not 16 bytes. -/
theorem C109_exact (tx : Transaction) (idx : UInt32) (s : Script) (v l : UInt32) (i : Input) (ciph : BlockCipher) (random : Option Bytes) (x : Bytes) :
    (ApplyUnlockingScript tx idx s = .panic ↔ tx.Inputs.length ≤ idx.toNat) ∧
    (GetLittleEndianBytes v l = .panic ↔ l.toNat < 4) ∧
    (Input.String i = .panic ↔ i.UnlockingScript = none) ∧
    (Encrypt ciph random x = .panic ↔ random ≠ none ∧ ciph.BlockSize ≠ 16) ∧
    ((Decrypt ciph x).1 = .panic ↔ 16 ≤ x.length ∧ ciph.BlockSize ≠ 16) := by
  refine ⟨?_, ?_, ?_, ?_, ?_⟩
  · unfold ApplyUnlockingScript index
    rcases h : tx.Inputs[idx.toNat]? with _ | j
    · simpa using h
    · have := (List.getElem?_eq_some_iff.mp h).1
      simp; omega
  · unfold GetLittleEndianBytes
    split_ifs with h <;> simp [h]
  · unfold Input.String
    rcases i.UnlockingScript with _ | s <;> simp
  · unfold Encrypt
    rcases random with _ | iv
    · simp
    · by_cases h : ciph.BlockSize = 16 <;> simp [h]
  · by_cases h : ciph.BlockSize = 16
    · have := (C62_total ciph h x).1
      simp [h, this]
    · unfold Decrypt
      by_cases hl : x.length < 16
      · rw [if_pos hl]; simp; omega
      · rw [if_neg hl]; dsimp only; rw [if_pos h]; simp [h]; omega

/-- The panics exist: one text or argument for each. -/
example : (∀ H, ValidateAddress H b!"bitcoin-script:" = .panic) ∧ DecodeStringParts b!"4dffff" = .panic ∧ Transaction.NewFromString [] b!"01000000ff00000000000000" = .panic ∧
    Decode32Byte [] b!"00" = .panic ∧ ApplyUnlockingScript exSpend 5 [] = .panic ∧ GetLittleEndianBytes 1 3 = .panic := by
  refine ⟨fun H => rfl, by decide +kernel, by decide +kernel, by decide +kernel, by decide +kernel, by decide +kernel⟩

/-- A key library that does not panic, as `C109_addPublicKey` asks. -/
example : (∀ s, toyHD.newKeyFromString s ≠ .panic) ∧ (∀ k n, toyHD.child k n ≠ .panic) ∧ ∀ k, toyHD.ecPubKey k ≠ .panic := by
  refine ⟨?_, ?_, ?_⟩ <;> intros <;> intro h <;> cases h

end Verif.Props
