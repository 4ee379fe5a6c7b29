import Verif.Lemmas.Asm
import Verif.Props.PushData
/-!
# Properties C12 - C20: ASM, opcode tables, script templates
-/
namespace Verif.Props
open Verif Verif.Spec Verif.Op

/-! ## C12 -/

/-- Specification: the tokens whose ASM text denotes them: single opcodes, and pushes of at least two bytes with the shortest header. -/
def AsmFaithful (t : Token) : Prop := ¬ t.IsPush ∨ (t.Minimal ∧ 2 ≤ t.payload.length)

theorem reenc_faithful {t : Token} (hv : t.Valid) (hf : AsmFaithful t) : reenc t.payload = t.bytes := by
  rcases hf with hf | ⟨hm, h2⟩
  · cases t <;> simp_all [Token.IsPush, reenc, Token.payload, Token.bytes, Token.header, Token.data]
  · cases t with
    | op o => simp [Token.payload] at h2
    | direct d | pd1 d | pd2 d | pd4 d =>
      simp only [Token.payload, Token.Minimal, Token.Valid] at *
      rw [reenc, if_neg (by omega)]
      congr 1
      unfold tokenFor
      split_ifs <;> first | rfl | omega

theorem reenc_length_le {t : Token} (hv : t.Valid) :
    (reenc t.payload).length ≤ t.bytes.length ∧ (¬ AsmFaithful t → (reenc t.payload).length < t.bytes.length) := by
  by_cases hf : AsmFaithful t
  · rw [reenc_faithful hv hf]; exact ⟨Nat.le_refl _, fun h => absurd hf h⟩
  · have : (reenc t.payload).length < t.bytes.length := by
      unfold AsmFaithful at hf
      push Not at hf
      obtain ⟨hp, hm⟩ := hf
      have hhdr : ∀ d : Bytes, d.length ≤ 0xFFFFFFFF → (tokenFor d).bytes.length =
          (if d.length = 0 then 1 else if d.length ≤ 75 then 1 else if d.length ≤ 0xFF then 2 else if d.length ≤ 0xFFFF then 3 else 5) + d.length := by
        intro d _
        rw [tokenFor_bytes, List.length_append]
        unfold tokenFor
        split_ifs <;> simp [Token.header]
      cases t with
      | op o => exact absurd hp (by simp [Token.IsPush])
      | direct d | pd1 d | pd2 d | pd4 d =>
        simp only [Token.payload, Token.Minimal, Token.Valid, Token.bytes, Token.header, Token.data] at hv hm ⊢
        unfold reenc
        split_ifs with h1
        · simp [h1]
        · rw [hhdr d (by omega)]
          simp only [List.length_append, List.length_cons, List.length_nil, leBytes_length, true_implies] at hm ⊢
          split_ifs <;> omega
    exact ⟨Nat.le_of_lt this, fun _ => this⟩

theorem reenc_sum (ts : List Token) (hv : ∀ t ∈ ts, t.Valid) :
    ((payloads ts).flatMap reenc).length ≤ (bytesOf ts).length ∧
    ((∃ t ∈ ts, ¬ AsmFaithful t) → ((payloads ts).flatMap reenc).length < (bytesOf ts).length) := by
  induction ts with
  | nil => simp [payloads, bytesOf]
  | cons t ts ih =>
    obtain ⟨i1, i2⟩ := ih (fun t ht => hv t (by simp [ht]))
    obtain ⟨j1, j2⟩ := reenc_length_le (hv t (by simp))
    simp only [payloads, bytesOf, List.map_cons, List.flatMap_cons, List.length_append] at *
    refine ⟨by omega, ?_⟩
    rintro ⟨u, hu, hf⟩
    rcases List.mem_cons.mp hu with rfl | hu
    · have := j2 hf; omega
    · have := i2 ⟨u, hu, hf⟩; omega

theorem decodable_len {t : Token} (hv : t.Valid) : t.payload.length ≤ 0xFFFFFFFF := by
  cases t <;> simp only [Token.payload, Token.Valid, List.length_singleton] at * <;> omega

/-- C12, exact domain. The round trip holds for a decodable script (given by its tokens) if and only if the script is not empty and
every token is a single opcode or a shortest-form push of at least two bytes. In all other cases the code violates C12. -/
theorem C12_asm_roundtrip_iff (ts : List Token) (hv : ∀ t ∈ ts, t.Valid) (hd : ∀ t ∈ ts, Decodable t) :
    (∃ a, ToASM (bytesOf ts) = .ok a ∧ NewFromASM a = .ok (bytesOf ts)) ↔
      ts ≠ [] ∧ ∀ t ∈ ts, ¬ t.IsPush ∨ (t.Minimal ∧ 2 ≤ t.payload.length) := by
  have hdec := decodeParts_tokens ts hv hd
  have hl : ∀ p ∈ payloads ts, p.length ≤ 0xFFFFFFFF := by
    intro p hp; obtain ⟨t, ht, rfl⟩ := List.mem_map.mp hp; exact decodable_len (hv t ht)
  obtain ⟨k, m, us, a, hps, ha, hn⟩ := newFromASM_toASM (bytesOf ts) (payloads ts) hdec hl
  have key : (∃ a, ToASM (bytesOf ts) = .ok a ∧ NewFromASM a = .ok (bytesOf ts)) ↔ (if us = [] then [0] else us.flatMap reenc) = bytesOf ts := by
    constructor
    · rintro ⟨a', h1, h2⟩
      rw [ha] at h1; injection h1 with h1; subst h1
      rw [hn] at h2; injection h2
    · intro h; exact ⟨a, ha, by rw [hn, h]⟩
  rw [key]
  constructor
  · intro h
    by_cases hu : us = []
    · exfalso
      rw [if_pos hu] at h
      cases ts with
      | nil => simp [bytesOf] at h
      | cons t ts =>
        have hpl : t.payload = [] := by
          have : t.payload ∈ payloads (t :: ts) := by simp [payloads]
          rw [hps, hu] at this
          simp only [List.append_nil, List.mem_append, List.mem_replicate] at this
          rcases this with h | h <;> exact h.2
        have hl2 : 2 ≤ t.bytes.length := by
          have := hv t (by simp)
          cases t <;> simp_all [Token.payload, Token.bytes, Token.header, Token.data, Token.Valid]
        have := congrArg List.length h
        simp only [bytesOf, List.flatMap_cons, List.length_append, List.length_singleton] at this
        omega
    · rw [if_neg hu] at h
      refine ⟨?_, ?_⟩
      · rintro rfl
        simp only [payloads, List.map_nil] at hps
        have := congrArg List.length hps
        simp only [List.length_nil, List.length_append] at this
        exact hu (List.length_eq_zero_iff.mp (by omega))
      · intro t ht
        by_contra hf
        have h1 := (reenc_sum ts hv).2 ⟨t, ht, hf⟩
        rw [← h, hps] at h1
        simp only [List.flatMap_append, List.length_append] at h1
        omega
  · rintro ⟨hne, hall⟩
    have hnil : ∀ p ∈ payloads ts, p ≠ [] := by
      intro p hp e; obtain ⟨t, ht, rfl⟩ := List.mem_map.mp hp
      rcases hall t ht with h | ⟨_, h⟩
      · cases t <;> simp_all [Token.IsPush, Token.payload]
      · rw [e] at h; simp at h
    have hk : k = 0 := by
      by_contra hk
      exact hnil [] (by rw [hps]; simp [hk]) rfl
    have hm : m = 0 := by
      by_contra hm
      exact hnil [] (by rw [hps]; simp [hm]) rfl
    subst hk hm
    simp only [List.replicate_zero, List.nil_append, List.append_nil] at hps
    rw [if_neg (by rw [← hps]; simpa [payloads] using hne), ← hps]
    simp only [payloads, bytesOf, List.flatMap_map]
    clear hdec hl hps ha hn key hnil hne
    induction ts with
    | nil => rfl
    | cons t ts ih =>
      rw [List.flatMap_cons, List.flatMap_cons, reenc_faithful (hv t (by simp)) (hall t (by simp)),
        ih (fun t h => hv t (by simp [h])) (fun t h => hd t (by simp [h])) (fun t h => hall t (by simp [h]))]

/-- C12, true part, in terms of the API: a non-empty script whose tokens are opcodes and shortest-form pushes of at least two bytes
survives `ToASM` followed by `NewFromASM`. Missing from the full property: the scripts excluded here, for which
`C12_asm_roundtrip_iff` shows that the round trip fails. -/
theorem C12_asm_roundtrip_on_domain (ts : List Token) (hne : ts ≠ []) (hv : ∀ t ∈ ts, t.Valid) (hd : ∀ t ∈ ts, Decodable t)
    (hf : ∀ t ∈ ts, ¬ t.IsPush ∨ (t.Minimal ∧ 2 ≤ t.payload.length)) :
    ∃ a, ToASM (bytesOf ts) = .ok a ∧ NewFromASM a = .ok (bytesOf ts) :=
  (C12_asm_roundtrip_iff ts hv hd).mpr ⟨hne, hf⟩

example : ∃ ts : List Token, bytesOf ts = [0x76, 0xa9, 0x02, 0xab, 0xcd, 0x88, 0xac] ∧ ts ≠ [] ∧ (∀ t ∈ ts, t.Valid) ∧
    (∀ t ∈ ts, Decodable t) ∧ (∀ t ∈ ts, ¬ t.IsPush ∨ (t.Minimal ∧ 2 ≤ t.payload.length)) :=
  ⟨[.op 0x76, .op 0xa9, .direct [0xab, 0xcd], .op 0x88, .op 0xac], by decide, by simp, by simp [Token.Valid], by simp [Decodable],
    by simp [Token.IsPush, Token.Minimal, Token.payload]⟩

example : ToASM [0x76, 0xa9, 0x02, 0xab, 0xcd, 0x88, 0xac] = .ok b!"OP_DUP OP_HASH160 abcd OP_EQUALVERIFY OP_CHECKSIG" ∧
    NewFromASM b!"OP_DUP OP_HASH160 abcd OP_EQUALVERIFY OP_CHECKSIG" = .ok [0x76, 0xa9, 0x02, 0xab, 0xcd, 0x88, 0xac] := by decide +kernel

/-- C12 is violated: pushing the byte 0xac becomes the opcode OP_CHECKSIG; a non-minimal push is shortened; an empty push
disappears; the empty script becomes OP_0. -/
theorem C12_violation_witness :
    (∃ a, ToASM [0x01, 0xac] = .ok a ∧ NewFromASM a = .ok [0xac]) ∧
    (∃ a, ToASM [0x4c, 0x02, 0x01, 0x02] = .ok a ∧ NewFromASM a = .ok [0x02, 0x01, 0x02]) ∧
    (∃ a, ToASM [0x4c, 0x00, 0x51] = .ok a ∧ NewFromASM a = .ok [0x51]) ∧
    (∃ a, ToASM [] = .ok a ∧ NewFromASM a = .ok [0x00]) :=
  ⟨⟨b!"OP_CHECKSIG", by decide +kernel⟩, ⟨b!"0102", by decide +kernel⟩, ⟨b!"OP_TRUE", by decide +kernel⟩, ⟨[], by decide +kernel⟩⟩

/-- C12, `ToASM` itself: fails exactly when decoding fails. -/
theorem C12_toASM_total (s : Script) : (∃ a, ToASM s = .ok a) ↔ ∃ ps, DecodeParts s = .ok ps := by
  constructor
  · rintro ⟨a, h⟩
    unfold ToASM at h
    obtain ⟨ps, h, _⟩ := Res.bind_eq_ok.mp h
    exact ⟨ps, h⟩
  · rintro ⟨ps, h⟩; exact ⟨_, toASM_eq s ps h⟩

/-! ## C13 -/

/-- C13: every byte has a (non-empty) name in the value table, the string table maps that name back to the byte, distinct bytes have
distinct names, names contain no white space and no name in either table can be read as hex. -/
theorem C13_opcode_tables :
    (∀ b : UInt8, ∃ name, opCodeValues.lookup b = some name ∧ name ≠ [] ∧ opCodeStrings.lookup name = some b) ∧
    (∀ (a b : UInt8) (name : Bytes), opCodeValues.lookup a = some name → opCodeValues.lookup b = some name → a = b) ∧
    (∀ (name : Bytes) (b : UInt8), opCodeStrings.lookup name = some b → (hexDecodeRes name).isErr ∧ (32 : UInt8) ∉ name) := by
  have h1 : ∀ b : UInt8, ∃ name, opCodeValues.lookup b = some name ∧ name ≠ [] ∧ opCodeStrings.lookup name = some b := by
    intro b
    have := opNames_ok b
    unfold opName at this
    rcases hl : opCodeValues.lookup b with _ | name
    · rw [hl] at this; exact absurd rfl this.2.1
    · rw [hl] at this; exact ⟨name, rfl, this.2.1, this.1⟩
  refine ⟨h1, ?_, ?_⟩
  · intro a b name ha hb
    obtain ⟨n1, h, _, h'⟩ := h1 a
    obtain ⟨n2, g, _, g'⟩ := h1 b
    rw [ha] at h; rw [hb] at g
    injection h with h; injection g with g
    subst h; subst g
    rw [h'] at g'; injection g'
  · intro name b h
    have hm := lookup_mem h
    refine ⟨?_, ?_⟩
    · obtain ⟨e, he⟩ := hexDecodeRes_not_isHex (opStrings_notHex _ hm)
      rw [he]; rfl
    · have : ∀ e ∈ opCodeStrings, (32 : UInt8) ∉ e.1 := by decide +kernel
      exact this _ hm

example : opCodeValues.lookup 0xac = some b!"OP_CHECKSIG" ∧ opCodeStrings.lookup b!"OP_CHECKSIG" = some 0xac ∧ 255 < opCodeStrings.length := by
  decide +kernel

/-! ## C14 -/

/-- C14 (a): the script built from a public key, for every key and hash function. -/
theorem C14_p2pkh_form (H : HashFns) (pk : Bytes) :
    NewP2PKHFromPubKeyBytes H pk = [0x76, 0xa9, 0x14] ++ H.ripemd160 (H.sha256 pk) ++ [0x88, 0xac] ∧
    (NewP2PKHFromPubKeyBytes H pk).length = 25 := by
  constructor
  · simp [NewP2PKHFromPubKeyBytes, Hash160, Ripemd160, Sha256, OpDUP, OpHASH160, OpEQUALVERIFY, OpCHECKSIG]
  · simp [NewP2PKHFromPubKeyBytes, Hash160, Ripemd160, H.ripemd160_length]

/-- C14 (b): `IsP2PKH` holds of exactly the scripts of that shape. -/
theorem C14_isP2PKH_iff (s : Script) :
    IsP2PKH s = true ↔ ∃ h : Bytes, h.length = 20 ∧ s = [0x76, 0xa9, 0x14] ++ h ++ [0x88, 0xac] := by
  constructor
  · intro hs
    simp only [IsP2PKH, Bool.and_eq_true, beq_iff_eq, OpDUP, OpHASH160, OpEQUALVERIFY, OpCHECKSIG] at hs
    obtain ⟨⟨⟨⟨⟨hl, h0⟩, h1⟩, h2⟩, h3⟩, h4⟩ := hs
    refine ⟨(s.drop 3).take 20, by simp [hl], ?_⟩
    apply List.ext_getElem?
    intro i
    by_cases hi : i < 25
    · have e : ∀ j, j < 25 → s[j]? = some (s.getD j 0) := by
        intro j hj; rw [List.getD_eq_getElem?_getD, List.getElem?_eq_getElem (by omega)]; rfl
      by_cases hi3 : i < 3
      · have : i = 0 ∨ i = 1 ∨ i = 2 := by omega
        rcases this with rfl | rfl | rfl
        · rw [e 0 (by omega), h0]; rfl
        · rw [e 1 (by omega), h1]; rfl
        · rw [e 2 (by omega), h2]; rfl
      · by_cases hi23 : i < 23
        · rw [List.getElem?_append_left (by simp [hl]; omega), List.getElem?_append_right (by simp; omega), List.getElem?_take,
            if_pos (by simp; omega), List.getElem?_drop]
          congr 1; simp; omega
        · have hlen : ([0x76, 0xa9, 0x14] ++ (s.drop 3).take 20 : Bytes).length = 23 := by simp [hl]
          have : i = 23 ∨ i = 24 := by omega
          rcases this with rfl | rfl
          · rw [e 23 (by omega), h3, List.getElem?_append_right (by omega), hlen]; rfl
          · rw [e 24 (by omega), h4, List.getElem?_append_right (by omega), hlen]; rfl
    · rw [List.getElem?_eq_none (by omega), List.getElem?_eq_none (by simp [hl]; omega)]
  · rintro ⟨h, hl, rfl⟩
    have g : ∀ j (v : UInt8), j < 25 → ([0x76, 0xa9, 0x14] ++ h ++ [0x88, 0xac] : Bytes)[j]? = some v →
        ([0x76, 0xa9, 0x14] ++ h ++ [0x88, 0xac] : Bytes).getD j 0 = v := by
      intro j v _ hv; rw [List.getD_eq_getElem?_getD, hv]; rfl
    simp only [IsP2PKH, Bool.and_eq_true, beq_iff_eq, OpDUP, OpHASH160, OpEQUALVERIFY, OpCHECKSIG]
    refine ⟨⟨⟨⟨⟨by simp [hl], rfl⟩, rfl⟩, rfl⟩, ?_⟩, ?_⟩
    · apply g 23 _ (by omega)
      rw [List.getElem?_append_right (by simp [hl])]; simp [hl]
    · apply g 24 _ (by omega)
      rw [List.getElem?_append_right (by simp [hl])]; simp [hl]

/-- The P2PKH script of a 20-byte hash, as tokens. -/
theorem p2pkh_tokens (h : Bytes) (hl : h.length = 20) :
    [0x76, 0xa9, 0x14] ++ h ++ [0x88, 0xac] = bytesOf [.op 0x76, .op 0xa9, .direct h, .op 0x88, .op 0xac] := by
  simp [bytesOf, Token.bytes, Token.header, Token.data, hl]

theorem decodeParts_p2pkh (h : Bytes) (hl : h.length = 20) :
    DecodeParts ([0x76, 0xa9, 0x14] ++ h ++ [0x88, 0xac]) = .ok [[0x76], [0xa9], h, [0x88], [0xac]] := by
  rw [p2pkh_tokens h hl, decodeParts_tokens]
  · simp [payloads, Token.payload]
  · simp [Token.Valid, hl]
  · simp [Decodable]

/-- C14 (c): `GetPublicKeyHash` of a P2PKH script returns the embedded hash. -/
theorem C14_getPublicKeyHash (h : Bytes) (hl : h.length = 20) :
    GetPublicKeyHash (some ([0x76, 0xa9, 0x14] ++ h ++ [0x88, 0xac])) = .ok h := by
  have : DecodeParts ([0x14] ++ h ++ [0x88, 0xac]) = .ok [h, [0x88], [0xac]] := by
    rw [show [0x14] ++ h ++ [0x88, 0xac] = bytesOf [.direct h, .op 0x88, .op 0xac] by
      simp [bytesOf, Token.bytes, Token.header, Token.data, hl], decodeParts_tokens]
    · simp [payloads, Token.payload]
    · simp [Token.Valid, hl]
    · simp [Decodable]
  simp only [GetPublicKeyHash, List.cons_append, List.length_cons, List.nil_append, index_cons_zero, Res.ok_bind]
  rw [if_neg (by omega), if_neg (by decide)]
  have i1 : index (0x76 :: 0xa9 :: 0x14 :: (h ++ [0x88, 0xac])) 1 = .ok 0xa9 := rfl
  rw [i1, Res.ok_bind, if_neg (by decide)]
  simp only [List.drop_succ_cons, List.drop_zero]
  simp only [List.cons_append, List.nil_append] at this
  rw [this]; rfl

/-- C14 (d): for every key, the built script is recognised and its hash is recovered. -/
theorem C14_p2pkh_roundtrip (H : HashFns) (pk : Bytes) :
    IsP2PKH (NewP2PKHFromPubKeyBytes H pk) = true ∧
    GetPublicKeyHash (some (NewP2PKHFromPubKeyBytes H pk)) = .ok (H.ripemd160 (H.sha256 pk)) := by
  rw [(C14_p2pkh_form H pk).1]
  exact ⟨(C14_isP2PKH_iff _).mpr ⟨_, H.ripemd160_length _, rfl⟩, C14_getPublicKeyHash _ (H.ripemd160_length _)⟩

/-- C14 (e): from a hex key hash: an error exactly on invalid hex, and a P2PKH script exactly when the hex denotes 20 bytes. -/
theorem C14_fromPubKeyHashStr (str : Bytes) :
    ((NewP2PKHFromPubKeyHashStr str).isErr ↔ ¬ IsHex str) ∧
    ((∃ s, NewP2PKHFromPubKeyHashStr str = .ok s ∧ IsP2PKH s = true) ↔ IsHex str ∧ str.length = 40) ∧
    (∀ h : Bytes, NewP2PKHFromPubKeyHashStr (hexEncode h) = .ok ([0x76, 0xa9, 0x14] ++ h ++ [0x88, 0xac])) := by
  unfold NewP2PKHFromPubKeyHashStr
  refine ⟨?_, ?_, ?_⟩
  · by_cases h : IsHex str
    · rw [hexDecodeRes_isHex h]; simp [h]
    · obtain ⟨e, he⟩ := hexDecodeRes_not_isHex h
      rw [he]; simp [h]
  · by_cases h : IsHex str
    · rw [hexDecodeRes_isHex h]
      have hl := hexDecodeIgnore_length h
      simp only [Res.ok_bind, Res.pure_eq, Res.ok.injEq, exists_eq_left', h, true_and]
      rw [C14_isP2PKH_iff]
      constructor
      · rintro ⟨h', hl', e⟩
        have := congrArg List.length e
        simp at this; omega
      · intro h40
        exact ⟨hexDecodeIgnore str, by omega, by simp [OpDUP, OpHASH160, OpEQUALVERIFY, OpCHECKSIG]⟩
    · obtain ⟨e, he⟩ := hexDecodeRes_not_isHex h
      rw [he]; simp [h]
  · intro h; simp [OpDUP, OpHASH160, OpEQUALVERIFY, OpCHECKSIG]

/-- C14 (f): the hex-key variant agrees with the byte variant. -/
theorem C14_fromPubKeyStr (H : HashFns) (str : Bytes) :
    (∀ pk, NewP2PKHFromPubKeyStr H (hexEncode pk) = .ok (NewP2PKHFromPubKeyBytes H pk)) ∧
    ((NewP2PKHFromPubKeyStr H str).isErr ↔ ¬ IsHex str) := by
  unfold NewP2PKHFromPubKeyStr
  refine ⟨by intro pk; simp, ?_⟩
  by_cases h : IsHex str
  · rw [hexDecodeRes_isHex h]; simp [h]
  · obtain ⟨e, he⟩ := hexDecodeRes_not_isHex h
    rw [he]; simp [h]

example : IsP2PKH ([0x76, 0xa9, 0x14] ++ List.replicate 20 7 ++ [0x88, 0xac]) = true ∧
    IsP2PKH ([0x76, 0xa9, 0x14] ++ List.replicate 19 7 ++ [0x88, 0xac]) = false := by decide +kernel

/-! ## C15 -/

/-- C15 (a): `IsP2SH` holds of exactly `a9 14 <20 bytes> 87`. -/
theorem C15_isP2SH_iff (s : Script) : IsP2SH s = true ↔ ∃ h : Bytes, h.length = 20 ∧ s = [0xa9, 0x14] ++ h ++ [0x87] := by
  constructor
  · intro hs
    simp only [IsP2SH, Bool.and_eq_true, beq_iff_eq, OpHASH160, OpEQUAL] at hs
    obtain ⟨⟨⟨hl, h0⟩, h1⟩, h2⟩ := hs
    have e : ∀ j, j < 23 → s[j]? = some (s.getD j 0) := by
      intro j hj; rw [List.getD_eq_getElem?_getD, List.getElem?_eq_getElem (by omega)]; rfl
    refine ⟨(s.drop 2).take 20, by simp [hl], ?_⟩
    apply List.ext_getElem?
    intro i
    have hlen : ([0xa9, 0x14] ++ (s.drop 2).take 20 : Bytes).length = 22 := by simp [hl]
    by_cases hi : i < 23
    · by_cases hi2 : i < 2
      · have : i = 0 ∨ i = 1 := by omega
        rcases this with rfl | rfl
        · rw [e 0 (by omega), h0]; rfl
        · rw [e 1 (by omega), h1]; rfl
      · by_cases hi22 : i < 22
        · rw [List.getElem?_append_left (by omega), List.getElem?_append_right (by simp; omega), List.getElem?_take,
            if_pos (by simp; omega), List.getElem?_drop]
          congr 1; simp; omega
        · have : i = 22 := by omega
          subst this
          rw [e 22 (by omega), h2, List.getElem?_append_right (by omega), hlen]; rfl
    · rw [List.getElem?_eq_none (by omega), List.getElem?_eq_none (by simp [hl]; omega)]
  · rintro ⟨h, hl, rfl⟩
    simp only [IsP2SH, Bool.and_eq_true, beq_iff_eq, OpHASH160, OpEQUAL]
    refine ⟨⟨⟨by simp [hl], rfl⟩, rfl⟩, ?_⟩
    rw [List.getD_eq_getElem?_getD, List.getElem?_append_right (by simp [hl])]
    simp [hl]

/-- C15 (b): the scriptPubKey of every redeem script is the P2SH script of its hash160. -/
theorem C15_scriptPubKey (H : HashFns) (rs : RedeemScript) :
    getScriptPubKey H rs = [0xa9, 0x14] ++ H.ripemd160 (H.sha256 (GetRedeemScript rs).1) ++ [0x87] ∧
    IsP2SH (getScriptPubKey H rs) = true := by
  have e : getScriptPubKey H rs = [0xa9, 0x14] ++ H.ripemd160 (H.sha256 (GetRedeemScript rs).1) ++ [0x87] := by
    simp [getScriptPubKey, GetRedeemScriptHash, Hash160, Ripemd160, Sha256, H.ripemd160_length, OpHASH160, OpEQUAL]
  refine ⟨e, ?_⟩
  rw [e]
  exact (C15_isP2SH_iff _).mpr ⟨_, H.ripemd160_length _, rfl⟩

example : IsP2SH ([0xa9, 0x14] ++ List.replicate 20 7 ++ [0x87]) = true ∧ IsP2SH ([0xa9, 0x14] ++ List.replicate 20 7 ++ [0x88]) = false := by
  decide +kernel

/-! ## C16 -/

/-- Specification: a public key: 33 bytes beginning 02/03, or 65 bytes beginning 04/06/07. -/
def IsPubKey (k : Bytes) : Prop :=
  (k.length = 33 ∧ (k.head? = some 2 ∨ k.head? = some 3)) ∨
  (k.length = 65 ∧ (k.head? = some 4 ∨ k.head? = some 6 ∨ k.head? = some 7))

theorem index_zero_head {α : Type} (l : List α) : index l 0 = match l.head? with | some a => .ok a | none => .panic := by
  cases l <;> rfl

/-- The outcome of `IsP2PK` in terms of the decoded parts. -/
theorem isP2PK_parts (s : Script) (ps : List Bytes) (h : DecodeParts s = .ok ps) :
    IsP2PK s = .ok true ↔ ∃ k c, ps = [k, 0xac :: c] ∧ IsPubKey k := by
  unfold IsP2PK
  rw [h]
  simp only
  constructor
  · intro hs
    split at hs
    · rename_i hc
      obtain ⟨hl, hk⟩ := hc
      obtain ⟨k, p, rfl⟩ : ∃ k p, ps = [k, p] := by
        rcases ps with _ | ⟨k, _ | ⟨p, _ | ⟨q, ps⟩⟩⟩ <;> simp at hl; exact ⟨k, p, rfl⟩
      simp only [List.getD_cons_zero, List.getD_cons_succ] at hs hk
      cases p with
      | nil => simp [index] at hs
      | cons c cs =>
        simp only [index_cons_zero, Res.ok_bind, Res.pure_eq, OpCHECKSIG] at hs
        split at hs
        · rename_i hc; subst hc
          refine ⟨k, cs, rfl, ?_⟩
          cases k with
          | nil => simp at hk
          | cons v vs =>
            simp only [List.getD_cons_zero] at hs
            unfold IsPubKey
            simp only [List.head?_cons, Option.some.injEq]
            split at hs
            · rename_i h1; right; exact ⟨h1.2, h1.1⟩
            · split at hs
              · rename_i h1; left; exact ⟨h1.2, h1.1.symm⟩
              · simp at hs
        · simp at hs
    · simp at hs
  · rintro ⟨k, c, rfl, hk⟩
    have hpos : 0 < k.length := by rcases hk with ⟨h, _⟩ | ⟨h, _⟩ <;> omega
    obtain ⟨v, vs, rfl⟩ : ∃ v vs, k = v :: vs := by
      cases k with
      | nil => simp at hpos
      | cons v vs => exact ⟨v, vs, rfl⟩
    simp only [List.getD_cons_zero, List.getD_cons_succ, List.length_cons, List.length_nil, index_cons_zero, Res.ok_bind, OpCHECKSIG, Res.pure_eq]
    rw [if_pos (by simp), if_pos trivial]
    unfold IsPubKey at hk
    simp only [List.head?_cons, Option.some.injEq, List.length_cons] at hk
    rcases hk with ⟨h1, h2⟩ | ⟨h1, h2⟩
    · rw [if_neg (by omega), if_pos ⟨h2.symm, h1⟩]
    · rw [if_pos ⟨h2, h1⟩]

/-- C16, exact: `IsP2PK` holds of exactly the scripts that consist of two tokens, a public key and a token whose payload begins with
the byte 0xac. The second token may be a push (the code looks only at the payload's first byte), so this is a larger
class than the property names; see `C16_violation_witness`. -/
theorem C16_isP2PK_iff (s : Script) :
    IsP2PK s = .ok true ↔ ∃ t u : Token, t.Valid ∧ u.Valid ∧ Decodable u ∧ s = t.bytes ++ u.bytes ∧ IsPubKey t.payload ∧ u.payload.head? = some 0xac := by
  constructor
  · intro h
    have hd : ∃ ps, DecodeParts s = .ok ps := by
      unfold IsP2PK at h
      split at h <;> simp_all
    obtain ⟨ps, hps⟩ := hd
    obtain ⟨k, c, rfl, hk⟩ := (isP2PK_parts s ps hps).mp h
    obtain ⟨ts, hv, hd, hb, hp⟩ := decodeParts_ok hps
    obtain ⟨t, u, rfl⟩ : ∃ t u, ts = [t, u] := by
      have := congrArg List.length hp
      rcases ts with _ | ⟨t, _ | ⟨u, _ | ⟨w, ts⟩⟩⟩ <;> simp [payloads] at this; exact ⟨t, u, rfl⟩
    simp only [payloads, List.map_cons, List.map_nil, List.cons.injEq, and_true] at hp
    refine ⟨t, u, hv t (by simp), hv u (by simp), hd u (by simp), by simpa [bytesOf] using hb, hp.1 ▸ hk, by rw [← hp.2]; rfl⟩
  · rintro ⟨t, u, ht, hu, hdu, rfl, hk, hh⟩
    have hdt : Decodable t := by
      have : t.payload.length = 33 ∨ t.payload.length = 65 := by rcases hk with ⟨h, _⟩ | ⟨h, _⟩ <;> omega
      cases t <;> simp_all [Decodable, Token.payload] <;> omega
    have := decodeParts_tokens [t, u] (by simpa using ⟨ht, hu⟩) (by simpa using ⟨hdt, hdu⟩)
    simp only [bytesOf, payloads, List.flatMap_cons, List.flatMap_nil, List.append_nil, List.map_cons, List.map_nil] at this
    refine (isP2PK_parts _ _ this).mpr ?_
    cases hp : u.payload with
    | nil => simp [hp] at hh
    | cons a as =>
      rw [hp] at hh
      simp only [List.head?_cons, Option.some.injEq] at hh
      subst hh
      exact ⟨_, as, rfl, hk⟩

/-- C16, true part: on scripts that do not end in a push token, `IsP2PK` holds of exactly `<push of a public key> OP_CHECKSIG`.
Missing from the full property: scripts whose second token is a push beginning with 0xac, which are accepted too. -/
theorem C16_isP2PK_on_domain (s : Script)
    (hlast : ∀ (t u : Token), t.Valid → u.Valid → s = t.bytes ++ u.bytes → ¬ u.IsPush) :
    IsP2PK s = .ok true ↔ ∃ t : Token, t.IsPush ∧ t.Valid ∧ IsPubKey t.payload ∧ s = t.bytes ++ [0xac] := by
  rw [C16_isP2PK_iff]
  constructor
  · rintro ⟨t, u, ht, hu, _, hs, hk, hh⟩
    have := hlast t u ht hu hs
    refine ⟨t, ?_, ht, hk, ?_⟩
    · have : t.payload.length = 33 ∨ t.payload.length = 65 := by rcases hk with ⟨h, _⟩ | ⟨h, _⟩ <;> omega
      cases t <;> simp_all [Token.IsPush, Token.payload]
    · cases u <;> simp_all [Token.IsPush, Token.payload, Token.bytes, Token.header, Token.data]
  · rintro ⟨t, _, ht, hk, rfl⟩
    exact ⟨t, .op 0xac, ht, by simp [Token.Valid], by simp [Decodable], by simp [Token.bytes, Token.header, Token.data], hk, by simp [Token.payload]⟩

/-- Every real P2PK script is recognised (no hypothesis on the rest). -/
theorem C16_isP2PK_complete (t : Token) (_hp : t.IsPush) (ht : t.Valid) (hk : IsPubKey t.payload) : IsP2PK (t.bytes ++ [0xac]) = .ok true :=
  (C16_isP2PK_iff _).mpr ⟨t, .op 0xac, ht, by simp [Token.Valid], by simp [Decodable], by simp [Token.bytes, Token.header, Token.data], hk, by simp [Token.payload]⟩

example : IsP2PK (0x21 :: 2 :: List.replicate 32 9 ++ [0xac]) = .ok true ∧ IsP2PK (0x21 :: 5 :: List.replicate 32 9 ++ [0xac]) = .ok false := by
  decide +kernel

/-- C16 is violated: a public key followed by a *push* of the bytes ac 01 02 is reported as P2PK although it contains no OP_CHECKSIG. -/
theorem C16_violation_witness :
    IsP2PK (0x21 :: 2 :: List.replicate 32 9 ++ [0x03, 0xac, 0x01, 0x02]) = .ok true ∧
    ¬ ∃ t : Token, t.IsPush ∧ t.Valid ∧ IsPubKey t.payload ∧ 0x21 :: 2 :: List.replicate 32 9 ++ [0x03, 0xac, 0x01, 0x02] = t.bytes ++ [0xac] := by
  refine ⟨by decide +kernel, ?_⟩
  rintro ⟨t, _, _, _, h⟩
  have := congrArg List.getLast? h
  rw [List.getLast?_append, List.getLast?_append] at this
  simp at this

/-! ## C17 -/

/-- Specification: OP_0, OP_1 .. OP_16. -/
def IsSmallInt (o : UInt8) : Prop := o = 0 ∨ (0x51 ≤ o ∧ o ≤ 0x60)

theorem isSmallIntOp_iff (o : UInt8) : isSmallIntOp o = true ↔ IsSmallInt o := by
  unfold isSmallIntOp IsSmallInt
  rw [Bool.or_eq_true, Bool.and_eq_true, beq_iff_eq, decide_eq_true_iff, decide_eq_true_iff]
  rfl

theorem take_drop_mid {α : Type} (a : α) (mid : List α) (y z : α) :
    (((a :: (mid ++ [y, z])).take ((a :: (mid ++ [y, z])).length - 2)).drop 1) = mid := by
  have : (a :: (mid ++ [y, z])).length - 2 = mid.length + 1 := by simp
  rw [this, List.take_succ_cons, List.drop_succ_cons, List.drop_zero, List.take_left]

theorem split_three {α : Type} (ps : List α) (h : ¬ ps.length < 3) : ∃ a mid y z, ps = a :: (mid ++ [y, z]) := by
  rcases ps with _ | ⟨a, ps⟩
  · simp at h
  · have hl : 2 ≤ ps.length := by simp at h; omega
    refine ⟨a, ps.take (ps.length - 2), ps[ps.length - 2], ps[ps.length - 1], ?_⟩
    congr 1
    apply List.ext_getElem?
    intro i
    by_cases hi : i < ps.length - 2
    · rw [List.getElem?_append_left (by simp; omega), List.getElem?_take, if_pos hi]
    · rw [List.getElem?_append_right (by simp; omega)]
      simp only [List.length_take]
      by_cases h1 : i = ps.length - 2
      · subst h1; simp
      · by_cases h2 : i = ps.length - 1
        · subst h2
          have : ps.length - 1 - min (ps.length - 2) ps.length = 1 := by omega
          rw [this]; simp
        · rw [List.getElem?_eq_none (by omega), List.getElem?_eq_none (by simp; omega)]

theorem getD_last2 {α : Type} (a : α) (mid : List α) (y z d : α) :
    (a :: (mid ++ [y, z])).getD ((a :: (mid ++ [y, z])).length - 2) d = y ∧
    (a :: (mid ++ [y, z])).getD ((a :: (mid ++ [y, z])).length - 1) d = z := by
  have e1 : (a :: (mid ++ [y, z])).length - 2 = mid.length + 1 := by simp
  have e2 : (a :: (mid ++ [y, z])).length - 1 = mid.length + 1 + 1 := by simp
  rw [e1, e2]
  constructor
  · rw [List.getD_cons_succ, List.getD_eq_getElem?_getD, List.getElem?_append_right (by omega)]; simp
  · rw [List.getD_cons_succ, List.getD_eq_getElem?_getD, List.getElem?_append_right (by omega)]; simp

/-- The outcome of `IsMultisigOut` on at least three parts. -/
theorem isMultisigOut_eq (s : Script) (a : Bytes) (mid : List Bytes) (y z : Bytes) (h : DecodeParts s = .ok (a :: (mid ++ [y, z]))) :
    IsMultisigOut s = (index a 0 >>= fun p0 => if isSmallIntOp p0 = false then pure false
      else if mid.any (fun p => p.length < 1) then pure false
      else index y 0 >>= fun n => if isSmallIntOp n then index z 0 >>= fun c => pure (c == 0xae) else pure false) := by
  unfold IsMultisigOut
  rw [h]
  simp only
  rw [if_neg (by simp), take_drop_mid, (getD_last2 a mid y z []).1, (getD_last2 a mid y z []).2]
  rfl

theorem isMultisigOut_parts (s : Script) (ps : List Bytes) (h : DecodeParts s = .ok ps) :
    IsMultisigOut s = .ok true ↔ ∃ (m : UInt8) (a : Bytes) (mid : List Bytes) (n : UInt8) (y z : Bytes),
      ps = (m :: a) :: (mid ++ [n :: y, 0xae :: z]) ∧ IsSmallInt m ∧ IsSmallInt n ∧ ∀ p ∈ mid, p ≠ [] := by
  by_cases hl : ps.length < 3
  · constructor
    · intro hs
      unfold IsMultisigOut at hs
      rw [h] at hs
      simp only [if_pos hl] at hs
      simp at hs
    · rintro ⟨m, a, mid, n, y, z, rfl, _⟩
      simp at hl; omega
  · obtain ⟨a, mid, y, z, rfl⟩ := split_three ps hl
    rw [isMultisigOut_eq s a mid y z h]
    constructor
    · intro hs
      obtain ⟨p0, h0, hs⟩ := Res.bind_eq_ok.mp hs
      cases a with
      | nil => simp [index] at h0
      | cons m a =>
        simp at h0; subst h0
        split at hs
        · simp at hs
        · rename_i hm
          split at hs
          · simp at hs
          · rename_i hmid
            obtain ⟨n, hn, hs⟩ := Res.bind_eq_ok.mp hs
            cases y with
            | nil => simp [index] at hn
            | cons n' y =>
              simp at hn; subst hn
              split at hs
              · rename_i hn
                obtain ⟨c, hc, hs⟩ := Res.bind_eq_ok.mp hs
                cases z with
                | nil => simp [index] at hc
                | cons c' z =>
                  simp at hc; subst hc
                  simp at hs; subst hs
                  refine ⟨m, a, mid, n', y, z, rfl, (isSmallIntOp_iff m).mp (by simpa using hm), (isSmallIntOp_iff n').mp hn, ?_⟩
                  intro p hp e
                  apply hmid
                  rw [List.any_eq_true]
                  exact ⟨p, hp, by simp [e]⟩
              · simp at hs
    · rintro ⟨m, a', mid', n, y', z', e, hm, hn, hmid⟩
      simp only [List.cons.injEq] at e
      obtain ⟨rfl, e⟩ := e
      have e' := List.append_inj' e rfl
      obtain ⟨rfl, e'⟩ := e'
      simp only [List.cons.injEq, and_true] at e'
      obtain ⟨rfl, rfl⟩ := e'
      have hany : (mid.any fun p => decide (p.length < 1)) = false := by
        rw [List.any_eq_false]
        intro p hp
        have := hmid p hp
        simp [this]
      simp [(isSmallIntOp_iff m).mpr hm, (isSmallIntOp_iff n).mpr hn]
      intro hx
      exact absurd rfl (hmid [] hx)

/-- C17, exact: `IsMultisigOut` holds of exactly the scripts of at least three tokens whose first and last-but-one payloads begin with a
small-integer opcode byte, whose last payload begins with 0xae and whose other payloads are non-empty. The code does not
distinguish pushes from opcodes, so this is a larger class than the property names; see `C17_violation_witness`. -/
theorem C17_isMultisigOut_iff (s : Script) :
    IsMultisigOut s = .ok true ↔ ∃ (t : Token) (mid : List Token) (u w : Token),
      (∀ x ∈ t :: (mid ++ [u, w]), x.Valid ∧ Decodable x) ∧ s = bytesOf (t :: (mid ++ [u, w])) ∧
      (∃ m, t.payload.head? = some m ∧ IsSmallInt m) ∧ (∃ n, u.payload.head? = some n ∧ IsSmallInt n) ∧
      w.payload.head? = some 0xae ∧ ∀ x ∈ mid, x.payload ≠ [] := by
  constructor
  · intro h
    have hd : ∃ ps, DecodeParts s = .ok ps := by
      unfold IsMultisigOut at h
      split at h <;> simp_all
    obtain ⟨ps, hps⟩ := hd
    obtain ⟨m, a, mid, n, y, z, rfl, hm, hn, hmid⟩ := (isMultisigOut_parts s ps hps).mp h
    obtain ⟨ts, hv, hd, hb, hp⟩ := decodeParts_ok hps
    obtain ⟨t, mid', u, w, rfl⟩ := split_three ts (by have := congrArg List.length hp; simp [payloads] at this; omega)
    simp only [payloads, List.map_cons, List.map_append, List.map_nil, List.cons.injEq] at hp
    obtain ⟨h1, h2⟩ := hp
    obtain ⟨h2, h3⟩ := List.append_inj' h2 rfl
    simp only [List.cons.injEq, and_true] at h3
    refine ⟨t, mid', u, w, fun x hx => ⟨hv x hx, hd x hx⟩, hb, ⟨m, by rw [← h1]; rfl, hm⟩, ⟨n, by rw [← h3.1]; rfl, hn⟩, by rw [← h3.2]; rfl, ?_⟩
    intro x hx
    exact hmid _ (by rw [h2]; exact List.mem_map.mpr ⟨x, hx, rfl⟩)
  · rintro ⟨t, mid, u, w, hv, rfl, ⟨m, hm, hm'⟩, ⟨n, hn, hn'⟩, hw, hmid⟩
    have := decodeParts_tokens _ (fun x hx => (hv x hx).1) (fun x hx => (hv x hx).2)
    refine (isMultisigOut_parts _ _ this).mpr ?_
    have hh : ∀ {l : Bytes} {c : UInt8}, l.head? = some c → ∃ r, l = c :: r := by
      intro l c h; cases l with
      | nil => simp at h
      | cons a as => simp at h; exact ⟨as, by rw [h]⟩
    obtain ⟨a, ha⟩ := hh hm
    obtain ⟨y, hy⟩ := hh hn
    obtain ⟨z, hz⟩ := hh hw
    refine ⟨m, a, mid.map Token.payload, n, y, z, by simp [payloads, ha, hy, hz], hm', hn', ?_⟩
    intro p hp
    obtain ⟨x, hx, rfl⟩ := List.mem_map.mp hp
    exact hmid x hx

/-- C17, true part: on scripts whose first, last-but-one and last tokens are opcodes and whose other tokens are pushes, `IsMultisigOut` holds
exactly when they are a small integer, a small integer, OP_CHECKMULTISIG, and non-empty data. Missing from the full
property: other token kinds in those positions, which the code accepts too. -/
theorem C17_isMultisigOut_on_domain (o p q : UInt8) (mid : List Token)
    (ho : (Token.op o).Valid) (hp : (Token.op p).Valid) (hq : (Token.op q).Valid)
    (hm : ∀ x ∈ mid, x.IsPush ∧ x.Valid ∧ Decodable x) :
    IsMultisigOut ([o] ++ bytesOf mid ++ [p, q]) = .ok true ↔ IsSmallInt o ∧ (∀ x ∈ mid, x.payload ≠ []) ∧ IsSmallInt p ∧ q = 0xae := by
  have hb : [o] ++ bytesOf mid ++ [p, q] = bytesOf (.op o :: (mid ++ [.op p, .op q])) := by
    simp [bytesOf, Token.bytes, Token.header, Token.data]
  have hd := decodeParts_tokens (.op o :: (mid ++ [.op p, .op q]))
    (by intro t ht
        simp only [List.mem_cons, List.mem_append, List.not_mem_nil, or_false] at ht
        rcases ht with rfl | ht | rfl | rfl
        · exact ho
        · exact (hm t ht).2.1
        · exact hp
        · exact hq)
    (by intro t ht
        simp only [List.mem_cons, List.mem_append, List.not_mem_nil, or_false] at ht
        rcases ht with rfl | ht | rfl | rfl
        · trivial
        · exact (hm t ht).2.2
        · trivial
        · trivial)
  rw [hb, isMultisigOut_parts _ _ hd]
  rw [show payloads (.op o :: (mid ++ [.op p, .op q])) = [o] :: (mid.map Token.payload ++ [[p], [q]]) by simp [payloads, Token.payload]]
  constructor
  · rintro ⟨m, a, mid', n, y, z, e, h1, h2, h3⟩
    simp only [List.cons.injEq] at e
    obtain ⟨⟨rfl, rfl⟩, e⟩ := e
    obtain ⟨rfl, e'⟩ := List.append_inj' e rfl
    injection e' with e1 e2
    injection e2 with e2 _
    injection e1 with e1 _
    injection e2 with e2 _
    subst e1 e2
    refine ⟨h1, ?_, h2, rfl⟩
    intro x hx
    exact h3 _ (List.mem_map.mpr ⟨x, hx, rfl⟩)
  · rintro ⟨h1, h2, h3, rfl⟩
    refine ⟨o, [], mid.map Token.payload, p, [], [], rfl, h1, h3, ?_⟩
    intro x hx
    obtain ⟨t, ht, rfl⟩ := List.mem_map.mp hx
    exact h2 t ht

example : IsMultisigOut [0x51, 0x02, 0xaa, 0xbb, 0x01, 0x09, 0x52, 0xae] = .ok true ∧ IsMultisigOut [0x50, 0x02, 0xaa, 0xbb, 0x52, 0xae] = .ok false := by
  decide +kernel

/-- C17 is violated: OP_1 OP_DUP OP_1 followed by a push of ae (no data push, no OP_CHECKMULTISIG) is reported as multisig. -/
theorem C17_violation_witness : IsMultisigOut [0x51, 0x76, 0x51, 0x01, 0xae] = .ok true ∧
    DecodeParts [0x51, 0x76, 0x51, 0x01, 0xae] = .ok [[0x51], [0x76], [0x51], [0xae]] := by decide +kernel

/-! ## C18 -/

/-- C18: `IsData` holds of exactly the scripts that begin with OP_RETURN or with OP_FALSE OP_RETURN. -/
theorem C18_isData_iff (s : Script) :
    IsData s = .ok true ↔ (∃ rest, s = 0x6a :: rest) ∨ (∃ rest, s = 0x00 :: 0x6a :: rest) := by
  rcases s with _ | ⟨a, _ | ⟨b, s⟩⟩
  · simp [IsData, index]
  · by_cases ha : a = 0x6a
    · simp [IsData, ha]
    · by_cases h0 : a = 0
      · subst h0; simp [IsData, index]
      · simp [IsData, ha, h0]
  · have i1 : index (a :: b :: s) 1 = .ok b := rfl
    by_cases ha : a = 0x6a
    · simp [IsData, ha]
    · by_cases h0 : a = 0
      · subst h0; simp [IsData, index]
      · simp [IsData, ha, h0]

example : IsData [0x6a, 1, 2] = .ok true ∧ IsData [0, 0x6a] = .ok true ∧ IsData [0x51, 0x6a] = .ok false ∧ IsData [0, 0x51] = .ok false := by decide +kernel

/-! ## C19 -/

theorem p2sh_parts (h : Bytes) (hl : h.length = 20) : DecodeParts ([0xa9, 0x14] ++ h ++ [0x87]) = .ok [[0xa9], h, [0x87]] := by
  rw [show [0xa9, 0x14] ++ h ++ [0x87] = bytesOf [.op 0xa9, .direct h, .op 0x87] by
      simp [bytesOf, Token.bytes, Token.header, Token.data, hl], decodeParts_tokens]
  · simp [payloads, Token.payload]
  · simp [Token.Valid, hl]
  · simp [Decodable]

/-- First part of a script that begins with a non-push opcode. -/
theorem first_part_op {s : Script} {o : UInt8} {r : Bytes} {p : Bytes} {ps : List Bytes} (ho : o = 0 ∨ 0x4e < o) (hs : s = o :: r)
    (h : DecodeParts s = .ok (p :: ps)) : p = [o] := by
  have := decodePartsFull_token (.op o) r (by simpa [Token.Valid] using ho) (by simp [Decodable])
  simp only [Token.bytes, Token.header, Token.data, List.append_nil, List.singleton_append, Token.payload] at this
  unfold DecodeParts at h
  rw [hs, this] at h
  split at h <;> simp_all

/-- C19: nine of the ten pairs of classes are exclusive, for all scripts, and `IsData` and `IsMultisigOut` can only overlap
on scripts beginning `00 6a`. That overlap is real; `C19_overlap_iff` says exactly where. -/
theorem C19_exclusive (s : Script) :
    ¬ (IsP2PKH s = true ∧ IsP2SH s = true) ∧
    ¬ (IsP2PKH s = true ∧ IsP2PK s = .ok true) ∧
    ¬ (IsP2PKH s = true ∧ IsMultisigOut s = .ok true) ∧
    ¬ (IsP2PKH s = true ∧ IsData s = .ok true) ∧
    ¬ (IsP2SH s = true ∧ IsP2PK s = .ok true) ∧
    ¬ (IsP2SH s = true ∧ IsMultisigOut s = .ok true) ∧
    ¬ (IsP2SH s = true ∧ IsData s = .ok true) ∧
    ¬ (IsP2PK s = .ok true ∧ IsMultisigOut s = .ok true) ∧
    ¬ (IsP2PK s = .ok true ∧ IsData s = .ok true) ∧
    (IsMultisigOut s = .ok true ∧ IsData s = .ok true → ∃ rest, s = 0x00 :: 0x6a :: rest) := by
  have decP : IsP2PK s = .ok true → ∃ ps, DecodeParts s = .ok ps := by
    intro h; unfold IsP2PK at h; split at h <;> simp_all
  have decM : IsMultisigOut s = .ok true → ∃ ps, DecodeParts s = .ok ps := by
    intro h; unfold IsMultisigOut at h; split at h <;> simp_all
  refine ⟨?_, ?_, ?_, ?_, ?_, ?_, ?_, ?_, ?_, ?_⟩
  · rintro ⟨h1, h2⟩
    obtain ⟨h, hl, rfl⟩ := (C14_isP2PKH_iff s).mp h1
    obtain ⟨g, gl, e⟩ := (C15_isP2SH_iff _).mp h2
    simp at e
  · rintro ⟨h1, h2⟩
    obtain ⟨h, hl, rfl⟩ := (C14_isP2PKH_iff s).mp h1
    obtain ⟨k, c, e, _⟩ := (isP2PK_parts _ _ (decodeParts_p2pkh h hl)).mp h2
    simp at e
  · rintro ⟨h1, h2⟩
    obtain ⟨h, hl, rfl⟩ := (C14_isP2PKH_iff s).mp h1
    obtain ⟨m, a, mid, n, y, z, e, hm, _⟩ := (isMultisigOut_parts _ _ (decodeParts_p2pkh h hl)).mp h2
    simp only [List.cons.injEq] at e
    rw [← e.1.1] at hm
    revert hm; unfold IsSmallInt; decide
  · rintro ⟨h1, h2⟩
    obtain ⟨h, hl, rfl⟩ := (C14_isP2PKH_iff s).mp h1
    rcases (C18_isData_iff _).mp h2 with ⟨r, e⟩ | ⟨r, e⟩ <;> simp at e
  · rintro ⟨h1, h2⟩
    obtain ⟨h, hl, rfl⟩ := (C15_isP2SH_iff s).mp h1
    obtain ⟨k, c, e, _⟩ := (isP2PK_parts _ _ (p2sh_parts h hl)).mp h2
    simp at e
  · rintro ⟨h1, h2⟩
    obtain ⟨h, hl, rfl⟩ := (C15_isP2SH_iff s).mp h1
    obtain ⟨m, a, mid, n, y, z, e, hm, _⟩ := (isMultisigOut_parts _ _ (p2sh_parts h hl)).mp h2
    simp only [List.cons.injEq] at e
    rw [← e.1.1] at hm
    revert hm; unfold IsSmallInt; decide
  · rintro ⟨h1, h2⟩
    obtain ⟨h, hl, rfl⟩ := (C15_isP2SH_iff s).mp h1
    rcases (C18_isData_iff _).mp h2 with ⟨r, e⟩ | ⟨r, e⟩ <;> simp at e
  · rintro ⟨h1, h2⟩
    obtain ⟨ps, hps⟩ := decP h1
    obtain ⟨k, c, rfl, _⟩ := (isP2PK_parts _ _ hps).mp h1
    obtain ⟨m, a, mid, n, y, z, e, _⟩ := (isMultisigOut_parts _ _ hps).mp h2
    have := congrArg List.length e
    simp at this
  · rintro ⟨h1, h2⟩
    obtain ⟨ps, hps⟩ := decP h1
    obtain ⟨k, c, rfl, hk⟩ := (isP2PK_parts _ _ hps).mp h1
    have hl : k.length = 33 ∨ k.length = 65 := by rcases hk with ⟨h, _⟩ | ⟨h, _⟩ <;> omega
    rcases (C18_isData_iff _).mp h2 with ⟨r, e⟩ | ⟨r, e⟩
    · rw [first_part_op (Or.inr (by decide)) e hps] at hl; simp at hl
    · rw [first_part_op (Or.inl rfl) e hps] at hl; simp at hl
  · rintro ⟨h1, h2⟩
    rcases (C18_isData_iff _).mp h2 with ⟨r, e⟩ | ⟨r, e⟩
    · exfalso
      obtain ⟨ps, hps⟩ := decM h1
      obtain ⟨m, a, mid, n, y, z, rfl, hm, _⟩ := (isMultisigOut_parts _ _ hps).mp h1
      have := first_part_op (Or.inr (by decide)) e hps
      simp only [List.cons.injEq] at this
      rw [this.1] at hm
      revert hm; unfold IsSmallInt; decide
    · exact ⟨r, e⟩

/-- C19 is violated: `00 6a 51 ae` (OP_FALSE OP_RETURN ...) satisfies both `IsData` and `IsMultisigOut`. -/
theorem C19_violation_witness : IsData [0x00, 0x6a, 0x51, 0xae] = .ok true ∧ IsMultisigOut [0x00, 0x6a, 0x51, 0xae] = .ok true := by
  decide +kernel

/-- C19, the exact overlap: `IsData` and `IsMultisigOut` both hold of exactly the scripts OP_FALSE OP_RETURN, any number of non-empty tokens, a token whose payload begins
with a small integer, a token whose payload begins with 0xae. -/
theorem C19_overlap_iff (s : Script) :
    (IsMultisigOut s = .ok true ∧ IsData s = .ok true) ↔ ∃ (mid : List Token) (u w : Token),
      (∀ x ∈ mid ++ [u, w], x.Valid ∧ Decodable x) ∧ s = 0x00 :: 0x6a :: bytesOf (mid ++ [u, w]) ∧ (∀ x ∈ mid, x.payload ≠ []) ∧
      (∃ n, u.payload.head? = some n ∧ IsSmallInt n) ∧ w.payload.head? = some 0xae := by
  constructor
  · rintro ⟨hm, hd⟩
    obtain ⟨rest, hr⟩ := (C19_exclusive s).2.2.2.2.2.2.2.2.2 ⟨hm, hd⟩
    obtain ⟨t, mid, u, w, hv, hs, ⟨m, hm1, hm2⟩, hu, hw, hne⟩ := (C17_isMultisigOut_iff s).mp hm
    -- the first token is the single byte 00
    have ht : t = .op 0 := by
      rw [hr] at hs
      have h0 : t.bytes.head? = some 0 := by
        have := congrArg List.head? hs
        simp only [List.head?_cons, bytesOf, List.flatMap_cons] at this
        rcases hb : t.bytes with _ | ⟨c, cs⟩
        · exact absurd hb (Token.bytes_ne_nil t)
        · rw [hb] at this; exact this.symm
      have hv := (hv t (by simp)).1
      cases t with
      | op o => simp [Token.bytes, Token.header, Token.data] at h0; rw [h0]
      | direct d =>
        simp only [Token.bytes, Token.header, Token.data, List.cons_append, List.head?_cons, Option.some.injEq] at h0
        have := congrArg UInt8.toNat h0
        rw [UInt8.toNat_ofNat'] at this
        have hv : 1 ≤ d.length ∧ d.length ≤ 75 := hv
        rw [Nat.mod_eq_of_lt (by omega)] at this
        simp at this; simp [this] at hv
      | pd1 d => simp [Token.bytes, Token.header] at h0
      | pd2 d => simp [Token.bytes, Token.header] at h0
      | pd4 d => simp [Token.bytes, Token.header] at h0
    subst ht
    rw [hr] at hs
    have hs' : 0x6a :: rest = bytesOf (mid ++ [u, w]) := by
      have : bytesOf (Token.op 0 :: (mid ++ [u, w])) = 0 :: bytesOf (mid ++ [u, w]) := by simp [bytesOf, Token.bytes, Token.header, Token.data]
      rw [this] at hs
      exact (List.cons.inj hs).2
    -- the second token is OP_RETURN and is one of the middle ones
    have key : ∀ (x : Token) (r : List Token), x.Valid → 0x6a :: rest = bytesOf (x :: r) → x = .op 0x6a ∧ rest = bytesOf r := by
      intro x r hx h
      have h0 : x.bytes.head? = some 0x6a := by
        have := congrArg List.head? h
        simp only [List.head?_cons, bytesOf, List.flatMap_cons] at this
        rcases hb : x.bytes with _ | ⟨c, cs⟩
        · exact absurd hb (Token.bytes_ne_nil x)
        · rw [hb] at this; exact this.symm
      have hxe : x = .op 0x6a := by
        cases x with
        | op o => simp [Token.bytes, Token.header, Token.data] at h0; rw [h0]
        | direct d =>
          simp only [Token.bytes, Token.header, Token.data, List.cons_append, List.head?_cons, Option.some.injEq] at h0
          have := congrArg UInt8.toNat h0
          rw [UInt8.toNat_ofNat'] at this
          have hv : 1 ≤ d.length ∧ d.length ≤ 75 := hx
          rw [Nat.mod_eq_of_lt (by omega)] at this
          have h6a : (0x6a : UInt8).toNat = 106 := rfl
          omega
        | pd1 d => simp [Token.bytes, Token.header] at h0
        | pd2 d => simp [Token.bytes, Token.header] at h0
        | pd4 d => simp [Token.bytes, Token.header] at h0
      subst hxe
      refine ⟨rfl, ?_⟩
      have : bytesOf (Token.op 0x6a :: r) = 0x6a :: bytesOf r := by simp [bytesOf, Token.bytes, Token.header, Token.data]
      rw [this] at h
      exact (List.cons.inj h).2
    rcases mid with _ | ⟨x, mid⟩
    · obtain ⟨rfl, _⟩ := key u [w] (hv u (by simp)).1 (by simpa using hs')
      obtain ⟨n, h1, h2⟩ := hu
      simp [Token.payload] at h1
      subst h1
      exact absurd h2 (by unfold IsSmallInt; decide)
    · obtain ⟨rfl, h2⟩ := key x (mid ++ [u, w]) (hv x (by simp)).1 (by simpa using hs')
      refine ⟨mid, u, w, ?_, ?_, ?_, hu, hw⟩
      · intro y hy; exact hv y (by simp at hy ⊢; tauto)
      · rw [hr, h2]
      · intro y hy; exact hne y (by simp [hy])
  · rintro ⟨mid, u, w, hv, rfl, hne, hu, hw⟩
    refine ⟨(C17_isMultisigOut_iff _).mpr ⟨.op 0, .op 0x6a :: mid, u, w, ?_, ?_, ⟨0, rfl, Or.inl rfl⟩, hu, hw, ?_⟩, (C18_isData_iff _).mpr (Or.inr ⟨_, rfl⟩)⟩
    · intro x hx
      rcases List.mem_cons.mp hx with rfl | hx
      · exact ⟨Or.inl rfl, trivial⟩
      · rcases List.mem_cons.mp hx with rfl | hx
        · exact ⟨Or.inr (by decide), trivial⟩
        · exact hv x hx
    · simp [bytesOf, Token.bytes, Token.header, Token.data]
    · intro x hx
      rcases List.mem_cons.mp hx with rfl | hx
      · simp [Token.payload]
      · exact hne x hx

/-! ## C20 -/

/-- C20 is violated; exact panic domains of the script predicates. `IsP2PKH` and `IsP2SH` (total functions in the model: all their
indexing is behind the length test) never panic. -/
theorem C20_panic_domains (s : Script) :
    (IsData s = .panic ↔ s = [] ∨ s = [0x00]) ∧
    (ToASM s = .panic ↔ DecodeParts s = .panic) ∧
    (IsP2PK s = .panic ↔ DecodeParts s = .panic ∨ ∃ k, k ≠ [] ∧ DecodeParts s = .ok [k, []]) ∧
    (IsMultisigOut s = .panic ↔ DecodeParts s = .panic ∨ ∃ a mid y z, DecodeParts s = .ok (a :: (mid ++ [y, z])) ∧
      (a = [] ∨ ((∃ m r, a = m :: r ∧ IsSmallInt m) ∧ (∀ p ∈ mid, p ≠ []) ∧
        (y = [] ∨ ((∃ n r, y = n :: r ∧ IsSmallInt n) ∧ z = []))))) ∧
    (GetPublicKeyHash (some s) = .panic ↔ s = [0x76] ∨ ∃ r, s = 0x76 :: 0xa9 :: r ∧ (r = [] ∨ DecodeParts r = .panic)) ∧
    GetPublicKeyHash none ≠ .panic := by
  refine ⟨?_, ?_, ?_, ?_, ?_, by simp [GetPublicKeyHash]⟩
  · rcases s with _ | ⟨a, _ | ⟨b, s⟩⟩
    · simp [IsData, index]
    · by_cases ha : a = 0x6a
      · simp [IsData, ha]
      · by_cases h0 : a = 0
        · subst h0; simp [IsData, index]
        · simp [IsData, ha, h0]
    · by_cases ha : a = 0x6a
      · simp [IsData, ha]
      · by_cases h0 : a = 0
        · subst h0; simp [IsData, index]
        · simp [IsData, ha, h0]
  · unfold ToASM; rw [Res.bind_eq_panic]; simp
  · unfold IsP2PK
    rcases hd : DecodeParts s with ps | e | _
    · simp only [reduceCtorEq, false_or, Res.ok.injEq]
      rcases ps with _ | ⟨k, _ | ⟨p, _ | ⟨q, ps⟩⟩⟩
      · simp
      · simp
      · by_cases hk : k = []
        · simp [hk]
        · have : 0 < k.length := List.length_pos_iff.mpr hk
          cases p with
          | nil => simp [index, this, hk]
          | cons c cs =>
            simp only [List.getD_cons_zero, List.getD_cons_succ, List.length_cons, List.length_nil, index_cons_zero, Res.ok_bind, Res.pure_eq]
            rw [if_pos ⟨by simp, this⟩]
            split_ifs <;> simp
      · simp
    · simp
    · simp
  · rcases hd : DecodeParts s with ps | e | _
    · simp only [reduceCtorEq, false_or, Res.ok.injEq]
      by_cases hl : ps.length < 3
      · constructor
        · intro h
          unfold IsMultisigOut at h
          rw [hd] at h
          simp only [if_pos hl] at h
          simp at h
        · rintro ⟨a, mid, y, z, rfl, _⟩; simp at hl; omega
      · obtain ⟨a, mid, y, z, rfl⟩ := split_three ps hl
        rw [isMultisigOut_eq s a mid y z hd]
        have inj : ∀ a' mid' y' z', a :: (mid ++ [y, z]) = a' :: (mid' ++ [y', z']) ↔ a' = a ∧ mid' = mid ∧ y' = y ∧ z' = z := by
          intro a' mid' y' z'
          constructor
          · intro e
            simp only [List.cons.injEq] at e
            obtain ⟨e2, e3⟩ := List.append_inj' e.2 rfl
            simp only [List.cons.injEq, and_true] at e3
            exact ⟨e.1.symm, e2.symm, e3.1.symm, e3.2.symm⟩
          · rintro ⟨rfl, rfl, rfl, rfl⟩; rfl
        simp only [inj]
        have simp4 : ∀ P : Bytes → List Bytes → Bytes → Bytes → Prop,
            (∃ a' mid' y' z', (a' = a ∧ mid' = mid ∧ y' = y ∧ z' = z) ∧ P a' mid' y' z') ↔ P a mid y z := by
          intro P; constructor
          · rintro ⟨_, _, _, _, ⟨rfl, rfl, rfl, rfl⟩, h⟩; exact h
          · intro h; exact ⟨_, _, _, _, ⟨rfl, rfl, rfl, rfl⟩, h⟩
        rw [simp4]
        cases a with
        | nil => simp [index]
        | cons m a =>
          simp only [index_cons_zero, Res.ok_bind, List.cons_ne_nil, false_or, List.cons.injEq]
          have hmid : (mid.any fun p => decide (p.length < 1)) = true ↔ ¬ ∀ p ∈ mid, p ≠ [] := by
            rw [List.any_eq_true]
            push Not
            constructor
            · rintro ⟨p, hp, h⟩; exact ⟨p, hp, by simpa using h⟩
            · rintro ⟨p, hp, h⟩; exact ⟨p, hp, by simp [h]⟩
          have em : (∃ m_1 r, (m = m_1 ∧ a = r) ∧ IsSmallInt m_1) ↔ isSmallIntOp m = true := by
            rw [isSmallIntOp_iff]
            constructor
            · rintro ⟨_, _, ⟨rfl, _⟩, h⟩; exact h
            · intro h; exact ⟨_, _, ⟨rfl, rfl⟩, h⟩
          rw [em]
          by_cases hm : isSmallIntOp m = true
          · rw [if_neg (by simp [hm])]
            by_cases hmd : ∀ p ∈ mid, p ≠ []
            · rw [if_neg (by rw [hmid]; exact fun h => h hmd)]
              cases y with
              | nil => simpa [index, hm] using hmd
              | cons n y =>
                have en : (∃ n_1 r, n :: y = n_1 :: r ∧ IsSmallInt n_1) ↔ isSmallIntOp n = true := by
                  rw [isSmallIntOp_iff]
                  constructor
                  · rintro ⟨_, _, e, h⟩; simp at e; rw [e.1]; exact h
                  · intro h; exact ⟨_, _, rfl, h⟩
                rw [en]
                simp only [index_cons_zero, Res.ok_bind, List.cons_ne_nil, false_or, hm, true_and]
                by_cases hn : isSmallIntOp n = true
                · rw [if_pos hn]
                  cases z with
                  | nil => simpa [index, hn] using hmd
                  | cons c z => simp
                · rw [if_neg hn]; simp [hn]
            · rw [if_pos (by rw [hmid]; exact hmd)]; simp [hmd]
          · rw [if_pos (by simpa using hm)]; simp [hm]
    · unfold IsMultisigOut; rw [hd]; simp
    · unfold IsMultisigOut; rw [hd]; simp
  · rcases s with _ | ⟨a, s⟩
    · simp [GetPublicKeyHash]
    · simp only [GetPublicKeyHash, List.length_cons, index_cons_zero, Res.ok_bind]
      rw [if_neg (by omega)]
      by_cases ha : a = 0x76
      · subst ha
        rw [if_neg (by simp)]
        rcases s with _ | ⟨b, s⟩
        · simp [index]
        · have i1 : index (0x76 :: b :: s) 1 = .ok b := rfl
          rw [i1, Res.ok_bind]
          by_cases hb : b = 0xa9
          · subst hb
            rw [if_neg (by simp)]
            simp only [List.drop_succ_cons, List.drop_zero, Res.bind_eq_panic]
            simp only [List.cons.injEq, reduceCtorEq, and_false, true_and, false_or, exists_eq_left']
            constructor
            · rintro (h | ⟨ps, h1, h2⟩)
              · exact Or.inr h
              · left
                rw [index_panic_iff] at h2
                have : ps = [] := List.length_eq_zero_iff.mp (by omega)
                subst this
                obtain ⟨ts, _, _, hb, hp⟩ := decodeParts_ok h1
                have : ts = [] := by simpa [payloads, eq_comm] using hp
                rw [hb, this]; rfl
            · rintro (rfl | h)
              · right; exact ⟨[], rfl, rfl⟩
              · exact Or.inl h
          · rw [if_pos hb]; simp [hb]
      · rw [if_pos ha]; simp [ha]

/-- C20, true part: on every script of at least three bytes in which `DecodeParts` reads only non-empty parts (or reports truncation), none of the
functions panics. Missing: empty and very short scripts, empty PUSHDATA parts and the overflow lengths of C10, where they do panic. -/
theorem C20_no_panic_on_domain (s : Script) (hl : 3 ≤ s.length) (hp : DecodeParts s ≠ .panic) (hp2 : DecodeParts (s.drop 2) ≠ .panic)
    (hne : ∀ ps, DecodeParts s = .ok ps → ∀ p ∈ ps, p ≠ []) :
    IsData s ≠ .panic ∧ ToASM s ≠ .panic ∧ IsP2PK s ≠ .panic ∧ IsMultisigOut s ≠ .panic ∧ GetPublicKeyHash (some s) ≠ .panic := by
  obtain ⟨h1, h2, h3, h4, h5, _⟩ := C20_panic_domains s
  refine ⟨?_, ?_, ?_, ?_, ?_⟩
  · rw [Ne, h1]; rintro (rfl | rfl) <;> simp at hl
  · rw [Ne, h2]; exact hp
  · rw [Ne, h3]
    rintro (h | ⟨k, _, h⟩)
    · exact hp h
    · exact hne _ h [] (by simp) rfl
  · rw [Ne, h4]
    rintro (h | ⟨a, mid, y, z, h, hc⟩)
    · exact hp h
    · have ha := hne _ h a (by simp)
      have hy := hne _ h y (by simp)
      have hz := hne _ h z (by simp)
      rcases hc with h | ⟨_, _, h | ⟨_, h⟩⟩
      · exact ha h
      · exact hy h
      · exact hz h
  · rw [Ne, h5]
    rintro (rfl | ⟨r, rfl, rfl | h⟩)
    · simp at hl
    · simp at hl
    · exact hp2 h

example : ∃ s : Script, 3 ≤ s.length ∧ DecodeParts s ≠ .panic ∧ DecodeParts (s.drop 2) ≠ .panic ∧
    (∀ ps, DecodeParts s = .ok ps → ∀ p ∈ ps, p ≠ []) := by
  refine ⟨[0x76, 0xa9, 0x01, 0x07, 0x88], by decide, by decide +kernel, by decide +kernel, ?_⟩
  have : DecodeParts [0x76, 0xa9, 0x01, 0x07, 0x88] = .ok [[0x76], [0xa9], [7], [0x88]] := by decide +kernel
  intro ps h; rw [this] at h; injection h with h; subst h; simp

/-- C20 is violated: concrete panics of each function. -/
theorem C20_violation_witness :
    IsData [] = .panic ∧ IsData [0x00] = .panic ∧ ToASM [0x4d, 0xff, 0xff] = .panic ∧
    IsP2PK [0x01, 0x02, 0x4c, 0x00] = .panic ∧ IsMultisigOut [0x4c, 0x00, 0x51, 0x51] = .panic ∧
    GetPublicKeyHash (some [0x76]) = .panic ∧ GetPublicKeyHash (some [0x76, 0xa9]) = .panic := by decide +kernel

end Verif.Props
