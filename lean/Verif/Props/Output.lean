import Verif.Props.Script
import Verif.Props.PushData
import Verif.Props.Redeem
import Verif.Model.Tx
/-! # C21: output constructors -/
namespace Verif.Props
open Verif Spec

/-- C21 (a): `NewOpReturnParts` (and `NewOpReturn`, one part) succeeds exactly when every part has at most 2^32-1 bytes, errs otherwise, and
the output carries no satoshis and the script OP_FALSE OP_RETURN followed by, for each part, its push prefix (closed form in C08) and the
part; `IsData` recognises it. -/
theorem C21_opReturn (data : List Bytes) :
    ((∀ p ∈ data, p.length ≤ 2 ^ 32 - 1) → ∃ o pres, Output.NewOpReturnParts data = .ok o ∧ o.Satoshis = 0 ∧ IsData o.LockingScript = .ok true ∧
        pres.length = data.length ∧ (∀ pp ∈ List.zip data pres, GetPushDataPrefix pp.1 = .ok pp.2) ∧
        o.LockingScript = [0x00, 0x6a] ++ (List.zip data pres).flatMap fun pp => pp.2 ++ pp.1) ∧
    ((∃ p ∈ data, 2 ^ 32 - 1 < p.length) → (Output.NewOpReturnParts data).isErr) ∧
    (∀ d, Output.NewOpReturn d = Output.NewOpReturnParts [d]) := by
  obtain ⟨h1, h2⟩ := C08_encodeParts data
  refine ⟨?_, ?_, fun _ => rfl⟩
  · intro h
    obtain ⟨pres, hl, hp, he⟩ := h1 h
    refine ⟨⟨0, [0x00, 0x6a] ++ (List.zip data pres).flatMap fun pp => pp.2 ++ pp.1⟩, pres, ?_, rfl, ?_, hl, hp, rfl⟩
    · simp [Output.NewOpReturnParts, createOpReturnOutput, AppendPushDataArray, he, AppendOpCode, Op.OpFALSE, Op.OpRETURN]
    · rw [C18_isData_iff]; right; exact ⟨_, rfl⟩
  · intro h
    have := h2 h
    unfold Output.NewOpReturnParts createOpReturnOutput AppendPushDataArray
    rcases he : EncodeParts data with b | e | _
    · rw [he] at this; simp at this
    · simp
    · rw [he] at this; simp at this

example : Output.NewOpReturnParts [[1, 2, 3], [9]] = .ok ⟨0, [0x00, 0x6a, 3, 1, 2, 3, 1, 9]⟩ := by decide +kernel

/-- C21 (b): the OP_RETURN script decodes back to the two opcodes and the data (an empty item reads back as the opcode 00), unless an item has
a length on which the decoder overflows (C07), and then decoding panics. -/
theorem C21_opReturn_decodes (data : List Bytes) (o : Output) (h : Output.NewOpReturnParts data = .ok o) :
    ((∀ d ∈ data, ¬ overflowLength d.length) → DecodeParts o.LockingScript = .ok ([0x00] :: [0x6a] :: data.map fun d => if d = [] then [0] else d)) ∧
    ((∃ d ∈ data, overflowLength d.length) → DecodeParts o.LockingScript = .panic) := by
  have base : DecodeParts [0x00, 0x6a] = .ok [[0x00], [0x6a]] := by decide +kernel
  obtain ⟨h1, h2⟩ := C11_append_sequence [0x00, 0x6a] _ base [AppendOp.pushArray data] (by intro a ha; rw [List.mem_singleton.mp ha]; trivial)
  unfold Output.NewOpReturnParts createOpReturnOutput at h
  simp only [AppendOpCode, Op.OpFALSE, Op.OpRETURN, List.nil_append, List.cons_append] at h
  obtain ⟨s, hs, h⟩ := Res.bind_eq_ok.mp h
  simp only [Res.pure_eq, Res.ok.injEq] at h
  subst h
  obtain ⟨b, hb, _⟩ := Res.bind_eq_ok.mp hs
  have hl : ∀ d ∈ data, d.length ≤ 2 ^ 32 - 1 := ((encodeParts_ok_iff data b).mp hb).1
  have er : [AppendOp.pushArray data].foldl AppendOp.run [0x00, 0x6a] = s := by
    simp [AppendOp.run, AppendOp.call, hs]
  rw [er] at h1 h2
  constructor
  · intro hn
    have := h1 (by intro a ha; rw [List.mem_singleton.mp ha]; rintro ⟨_, d, hd, ho⟩; exact hn d hd ho)
    rw [this]
    simp only [List.flatMap_cons, List.flatMap_nil, AppendOp.adds, if_pos hl, List.append_nil]
    rfl
  · rintro ⟨d, hd, ho⟩
    exact h2 ⟨_, List.mem_singleton.mpr rfl, hl, d, hd, ho⟩

example : ∃ o, Output.NewOpReturnParts [[1, 2, 3], [9]] = .ok o ∧ DecodeParts o.LockingScript = .ok [[0], [0x6a], [1, 2, 3], [9]] :=
  ⟨⟨0, [0x00, 0x6a, 3, 1, 2, 3, 1, 9]⟩, by decide +kernel, by decide +kernel⟩

/-- C21 (c): `NewHashPuzzle` for a 20-byte key hash: HASH160, the hash160 of the secret, EQUALVERIFY, then exactly the P2PKH script of the key hash. -/
theorem C21_hashPuzzle (H : HashFns) (secret h : Bytes) (sats : UInt64) (hl : h.length = 20) :
    ∃ p2pkh, NewP2PKHFromPubKeyHashStr (hexEncode h) = .ok p2pkh ∧ IsP2PKH p2pkh = true ∧
      Output.NewHashPuzzle H secret (hexEncode h) sats =
        .ok ⟨sats, [0xa9, 0x14] ++ H.ripemd160 (H.sha256 secret) ++ [0x88] ++ p2pkh⟩ ∧
      DecodeParts ([0xa9, 0x14] ++ H.ripemd160 (H.sha256 secret) ++ [0x88] ++ p2pkh) =
        .ok [[0xa9], H.ripemd160 (H.sha256 secret), [0x88], [0x76], [0xa9], h, [0x88], [0xac]] := by
  refine ⟨_, (C14_fromPubKeyHashStr []).2.2 h, (C14_isP2PKH_iff _).mpr ⟨h, hl, rfl⟩, ?_, ?_⟩
  · have e1 : ∀ d : Bytes, d.length = 20 → EncodeParts [d] = .ok (0x14 :: d) := by
      intro d hd
      simp [EncodeParts, GetPushDataPrefix, hd]
    have hr := e1 _ (H.ripemd160_length (H.sha256 secret))
    have hh := e1 _ hl
    simp [Output.NewHashPuzzle, AppendPushData, AppendOpCode, Hash160, Sha256, Ripemd160, hr, hh, Op.OpHASH160, Op.OpEQUALVERIFY, Op.OpDUP, Op.OpCHECKSIG]
  · have t := decodeParts_tokens [.op 0xa9, .direct (H.ripemd160 (H.sha256 secret)), .op 0x88, .op 0x76, .op 0xa9, .direct h, .op 0x88, .op 0xac]
      (by
        have := H.ripemd160_length (H.sha256 secret)
        simp [Token.Valid, hl, this])
      (by simp [Decodable])
    have b1 : bytesOf [.op 0xa9, .direct (H.ripemd160 (H.sha256 secret)), .op 0x88, .op 0x76, .op 0xa9, .direct h, .op 0x88, .op 0xac] =
        [0xa9, 0x14] ++ H.ripemd160 (H.sha256 secret) ++ [0x88] ++ ([0x76, 0xa9, 0x14] ++ h ++ [0x88, 0xac]) := by
      simp [bytesOf, Token.bytes, Token.header, Token.data, hl, H.ripemd160_length]
    rw [b1] at t
    exact t

/-- C21 (d): `NewHashPuzzle` fails exactly on invalid hex or an oversized key hash, and never panics. -/
theorem C21_hashPuzzle_domain (H : HashFns) (secret str : Bytes) (sats : UInt64) :
    ((Output.NewHashPuzzle H secret str sats).isOk ↔ IsHex str ∧ str.length ≤ 2 * (2 ^ 32 - 1)) ∧
    Output.NewHashPuzzle H secret str sats ≠ .panic := by
  have hr : EncodeParts [H.ripemd160 (H.sha256 secret)] = .ok (0x14 :: H.ripemd160 (H.sha256 secret)) := by
    simp [EncodeParts, GetPushDataPrefix, H.ripemd160_length]
  unfold Output.NewHashPuzzle
  by_cases hx : IsHex str
  · rw [hexDecodeRes_isHex hx]
    have hl := hexDecodeIgnore_length hx
    simp only [Res.ok_bind, AppendPushData, Hash160, Sha256, Ripemd160, hr, Res.pure_eq, hx, true_and]
    by_cases hb : (hexDecodeIgnore str).length ≤ 0xFFFFFFFF
    · have := (encodeParts_ok_iff [hexDecodeIgnore str] _).mpr ⟨by simpa using hb, rfl⟩
      rw [this]
      simp; omega
    · obtain ⟨e, he⟩ := encodeParts_err (ps := [hexDecodeIgnore str]) (by simpa using hb)
      rw [he]
      simp; omega
  · obtain ⟨e, he⟩ := hexDecodeRes_not_isHex hx
    rw [he]; simp [hx]

example : (Output.NewHashPuzzle toyH b!"secret" b!"zz" 5).isErr = true ∧ (Output.NewHashPuzzle toyH b!"secret" b!"ab" 5).isOk = true := by decide +kernel

/-- C21 (e): the two P2PKH output constructors pay the given amount to exactly the P2PKH script of the hash, and fail exactly when the script
constructor does. -/
theorem C21_p2pkh_outputs (h str : Bytes) (sats : UInt64) :
    Output.NewP2PkhFromPubKeyHash (hexEncode h) sats = .ok ⟨sats, [0x76, 0xa9, 0x14] ++ h ++ [0x88, 0xac]⟩ ∧
    ((Output.NewP2PkhFromPubKeyHash str sats).isErr ↔ ¬ IsHex str) ∧
    (∀ o, Output.NewP2PKHFromAddress str sats = .ok o → o.Satoshis = sats ∧ NewP2PKHFromAddress str = .ok o.LockingScript) := by
  refine ⟨?_, ?_, ?_⟩
  · simp only [Output.NewP2PkhFromPubKeyHash, (C14_fromPubKeyHashStr []).2.2 h]; rfl
  · rw [← (C14_fromPubKeyHashStr str).1]
    unfold Output.NewP2PkhFromPubKeyHash
    cases NewP2PKHFromPubKeyHashStr str <;> simp
  · intro o ho
    unfold Output.NewP2PKHFromAddress at ho
    obtain ⟨s, hs, e⟩ := Res.bind_eq_ok.mp ho
    simp only [Res.pure_eq, Res.ok.injEq] at e
    subst e
    exact ⟨rfl, hs⟩

end Verif.Props
