import Verif.Lemmas.PushData
import Verif.Model.Script
/-! # C07–C11: push-data encoding and decoding -/
namespace Verif.Props
open Verif Spec

/-! ## C07 -/

/-- A part length at which the decoder's fixed-width additions (`3+l` in uint16, `5+l` in uint32) overflow. -/
def overflowLength (n : Nat) : Prop := (65533 ≤ n ∧ n ≤ 65535) ∨ (2 ^ 32 - 5 ≤ n ∧ n ≤ 2 ^ 32 - 1)

theorem tokenFor_decodable {p : Bytes} (h1 : p.length ≤ 0xFFFFFFFF) (h2 : ¬ overflowLength p.length) : Decodable (tokenFor p) := by
  unfold overflowLength at h2
  unfold tokenFor; split_ifs <;> simp [Decodable] <;> omega

/-- C07, true part: the round trip for every list of non-empty parts whose lengths are outside 65533..65535 and 2^32-5..2^32-1.
Missing from the full property: those lengths (see `C07_roundtrip_iff`: there the round trip always fails). -/
theorem C07_roundtrip_on_domain (parts : List Bytes) (hne : ∀ p ∈ parts, p ≠ []) (hlen : ∀ p ∈ parts, p.length ≤ 2 ^ 32 - 1)
    (hok : ∀ p ∈ parts, ¬ overflowLength p.length) :
    ∃ b, EncodeParts parts = .ok b ∧ DecodeParts b = .ok parts := by
  refine ⟨_, (encodeParts_ok_iff parts _).mpr ⟨fun p hp => hlen p hp, rfl⟩, ?_⟩
  rw [decodeParts_tokens]
  · congr 1
    unfold payloads
    rw [List.map_map]
    conv_rhs => rw [← List.map_id parts]
    apply List.map_congr_left
    intro p hp; exact tokenFor_payload p (hne p hp)
  · intro t ht
    obtain ⟨p, hp, rfl⟩ := List.mem_map.mp ht
    exact tokenFor_valid p (hlen p hp)
  · intro t ht
    obtain ⟨p, hp, rfl⟩ := List.mem_map.mp ht
    exact tokenFor_decodable (hlen p hp) (hok p hp)

example : ∃ parts : List Bytes, parts.length = 3 ∧ (∀ p ∈ parts, p ≠ []) ∧ (∀ p ∈ parts, p.length ≤ 2 ^ 32 - 1) ∧
    (∀ p ∈ parts, ¬ overflowLength p.length) :=
  ⟨[[1], [7, 8, 9], [0xac, 5]], rfl, by simp, by simp, by simp [overflowLength]⟩

theorem badHeader_tokenFor {p : Bytes} (h : overflowLength p.length) (rest : Bytes) : BadHeader ((tokenFor p).bytes ++ rest) := by
  unfold overflowLength at h
  rcases h with h | h
  · left
    have ht : tokenFor p = .pd2 p := by
      unfold tokenFor; rw [if_neg (by omega), if_neg (by omega), if_neg (by omega), if_pos (by omega)]
    refine ⟨leBytes 2 p.length, p ++ rest, ?_, by simp, ?_⟩
    · rw [ht]; simp [Token.bytes, Token.header, Token.data]
    · rw [leNat_leBytes, Nat.mod_eq_of_lt] <;> omega
  · right
    have ht : tokenFor p = .pd4 p := by
      unfold tokenFor; rw [if_neg (by omega), if_neg (by omega), if_neg (by omega), if_neg (by omega)]
    refine ⟨leBytes 4 p.length, p ++ rest, ?_, by simp, ?_⟩
    · rw [ht]; simp [Token.bytes, Token.header, Token.data]
    · rw [leNat_leBytes, Nat.mod_eq_of_lt] <;> omega

theorem decodeStep_bad {b : Bytes} (h : BadHeader b) : decodeStep b = .error .panic := by
  rcases decodeStep_cases b with ⟨rfl, _⟩ | ⟨t, rest, hv, hd, rfl, _⟩ | ⟨_, hn, _⟩ | ⟨_, h⟩
  · rcases h with ⟨_, _, h, _⟩ | ⟨_, _, h, _⟩ <;> simp at h
  · exfalso
    rcases h with ⟨lb, r, h, hl, hb⟩ | ⟨lb, r, h, hl, hb⟩
    · cases t with
      | op o =>
        simp only [Token.bytes, Token.header, Token.data, List.append_nil, List.singleton_append, List.cons.injEq] at h
        simp only [Token.Valid, UInt8.lt_iff_toNat_lt] at hv
        rw [h.1] at hv; revert hv; decide
      | direct d =>
        simp only [Token.Valid] at hv
        simp only [Token.bytes, Token.header, Token.data, List.cons_append, List.cons.injEq] at h
        have := congrArg UInt8.toNat h.1; simp at this; omega
      | pd1 d => simp [Token.bytes, Token.header] at h
      | pd2 d =>
        simp only [Token.Valid] at hv
        simp only [Decodable] at hd
        simp only [Token.bytes, Token.header, Token.data, List.cons_append, List.cons.injEq, true_and, List.append_assoc] at h
        have := (List.append_inj h (by simp [hl])).1
        rw [← this, leNat_leBytes, Nat.mod_eq_of_lt (by omega)] at hb
        omega
      | pd4 d => simp [Token.bytes, Token.header] at h
    · cases t with
      | op o =>
        simp only [Token.bytes, Token.header, Token.data, List.append_nil, List.singleton_append, List.cons.injEq] at h
        simp only [Token.Valid, UInt8.lt_iff_toNat_lt] at hv
        rw [h.1] at hv; revert hv; decide
      | direct d =>
        simp only [Token.Valid] at hv
        simp only [Token.bytes, Token.header, Token.data, List.cons_append, List.cons.injEq] at h
        have := congrArg UInt8.toNat h.1; simp at this; omega
      | pd1 d => simp [Token.bytes, Token.header] at h
      | pd4 d =>
        simp only [Token.Valid] at hv
        simp only [Decodable] at hd
        simp only [Token.bytes, Token.header, Token.data, List.cons_append, List.cons.injEq, true_and, List.append_assoc] at h
        have := (List.append_inj h (by simp [hl])).1
        rw [← this, leNat_leBytes, Nat.mod_eq_of_lt (by omega)] at hb
        omega
      | pd2 d => simp [Token.bytes, Token.header] at h
  · exact absurd h hn
  · exact h

theorem decodeParts_bad_prefix (ts : List Token) (hv : ∀ t ∈ ts, t.Valid) (hd : ∀ t ∈ ts, Decodable t) {rest : Bytes} (hb : BadHeader rest) :
    DecodeParts (bytesOf ts ++ rest) = .panic := by
  have := decodePartsFull_tokens ts rest hv hd
  rw [decodePartsFull_err (decodeStep_bad hb)] at this
  simp [DecodeParts, this]

/-- C07 is violated exactly at the overflow lengths: a list of non-empty parts that `EncodeParts` accepts is decoded back to itself if
and only if no part has such a length; otherwise `DecodeParts` panics. -/
theorem C07_roundtrip_iff (parts : List Bytes) (b : Bytes) (hne : ∀ p ∈ parts, p ≠ []) (henc : EncodeParts parts = .ok b) :
    (DecodeParts b = .ok parts ↔ ∀ p ∈ parts, ¬ overflowLength p.length) ∧
    ((∃ p ∈ parts, overflowLength p.length) → DecodeParts b = .panic) := by
  obtain ⟨hlen, rfl⟩ := (encodeParts_ok_iff parts b).mp henc
  have hpanic : (∃ p ∈ parts, overflowLength p.length) → DecodeParts (bytesOf (parts.map tokenFor)) = .panic := by
    rintro ⟨p, hp, ho⟩
    classical
    -- split at the first part with an overflow length
    have hex : ∃ pre q post, parts = pre ++ q :: post ∧ overflowLength q.length ∧ ∀ x ∈ pre, ¬ overflowLength x.length := by
      clear henc hne hlen
      induction parts with
      | nil => simp at hp
      | cons a as ih =>
        by_cases ha : overflowLength a.length
        · exact ⟨[], a, as, rfl, ha, by simp⟩
        · have hp' : p ∈ as := by
            rcases List.mem_cons.mp hp with rfl | h
            · exact absurd ho ha
            · exact h
          obtain ⟨pre, q, post, rfl, h2, h3⟩ := ih hp'
          refine ⟨a :: pre, q, post, rfl, h2, ?_⟩
          intro x hx; rcases List.mem_cons.mp hx with rfl | hx
          · exact ha
          · exact h3 x hx
    obtain ⟨pre, q, post, rfl, hq, hpre⟩ := hex
    have : bytesOf ((pre ++ q :: post).map tokenFor) = bytesOf (pre.map tokenFor) ++ ((tokenFor q).bytes ++ bytesOf (post.map tokenFor)) := by
      simp [bytesOf]
    rw [this]
    apply decodeParts_bad_prefix
    · intro t ht
      obtain ⟨x, hx, rfl⟩ := List.mem_map.mp ht
      exact tokenFor_valid x (hlen x (by simp [hx]))
    · intro t ht
      obtain ⟨x, hx, rfl⟩ := List.mem_map.mp ht
      exact tokenFor_decodable (hlen x (by simp [hx])) (hpre x hx)
    · exact badHeader_tokenFor hq _
  refine ⟨⟨?_, ?_⟩, hpanic⟩
  · intro h p hp ho
    rw [hpanic ⟨p, hp, ho⟩] at h
    simp at h
  · intro h
    obtain ⟨b, h1, h2⟩ := C07_roundtrip_on_domain parts hne hlen h
    rw [henc] at h1
    injection h1 with h1
    rw [h1]; exact h2

/-- Concrete witness of the violation: one part of 65535 bytes is encoded without error and makes the decoder panic. -/
theorem C07_violation_witness : ∃ (p b : Bytes), p.length = 65535 ∧ EncodeParts [p] = .ok b ∧ DecodeParts b = .panic := by
  obtain ⟨p, hp⟩ : ∃ p : Bytes, p.length = 65535 := ⟨List.replicate 65535 1, List.length_replicate⟩
  have henc : EncodeParts [p] = .ok (bytesOf ([p].map tokenFor)) := by
    refine (encodeParts_ok_iff _ _).mpr ⟨?_, rfl⟩
    intro q hq; rw [List.mem_singleton.mp hq]; omega
  have hne : ∀ q ∈ [p], q ≠ [] := by
    intro q hq h; rw [List.mem_singleton.mp hq] at h; rw [h] at hp; simp at hp
  refine ⟨p, _, hp, henc, ?_⟩
  refine (C07_roundtrip_iff [p] _ hne henc).2 ⟨p, List.mem_singleton.mpr rfl, ?_⟩
  left; omega

/-- An empty part does not survive: it is encoded as the opcode 0x00 and decodes to the one-byte part 00. -/
theorem C07_empty_part (parts : List Bytes) (b : Bytes) (h : EncodeParts parts = .ok b) (hok : ∀ p ∈ parts, ¬ overflowLength p.length) :
    DecodeParts b = .ok (parts.map fun p => if p = [] then [0] else p) := by
  obtain ⟨hlen, rfl⟩ := (encodeParts_ok_iff parts b).mp h
  rw [decodeParts_tokens]
  · congr 1
    unfold payloads
    rw [List.map_map]
    apply List.map_congr_left
    intro p hp
    by_cases hp0 : p = []
    · subst hp0; rfl
    · simp [hp0, tokenFor_payload p hp0]
  · intro t ht
    obtain ⟨p, hp, rfl⟩ := List.mem_map.mp ht
    exact tokenFor_valid p (hlen p hp)
  · intro t ht
    obtain ⟨p, hp, rfl⟩ := List.mem_map.mp ht
    exact tokenFor_decodable (hlen p hp) (hok p hp)

example : EncodeParts [[5, 6], []] = .ok [2, 5, 6, 0] ∧ DecodeParts [2, 5, 6, 0] = .ok [[5, 6], [0]] := by decide +kernel

/-! ## C08 -/

/-- C08 (a): success exactly up to 2^32-1 bytes, otherwise an error. -/
theorem C08_prefix_domain (d : Bytes) :
    ((GetPushDataPrefix d).isOk ↔ d.length ≤ 2 ^ 32 - 1) ∧ ((GetPushDataPrefix d).isErr ↔ 2 ^ 32 - 1 < d.length) := by
  unfold GetPushDataPrefix
  simp only
  split_ifs <;> simp <;> omega

/-- C08 (b): the prefix, in closed form. -/
theorem C08_prefix_form (d : Bytes) (h : d.length ≤ 2 ^ 32 - 1) :
    GetPushDataPrefix d = .ok (
      if d.length ≤ 75 then [UInt8.ofNat d.length]
      else if d.length < 2 ^ 8 then 0x4c :: leBytes 1 d.length
      else if d.length < 2 ^ 16 then 0x4d :: leBytes 2 d.length
      else 0x4e :: leBytes 4 d.length) := by
  rw [getPushDataPrefix_eq d h]
  congr 1
  unfold tokenFor
  by_cases h0 : d.length = 0
  · simp [h0, Token.header]
  · rw [if_neg h0]
    split_ifs <;> first | rfl | omega

/-- C08 (c): for non-empty data the prefix followed by the data is a valid push token with this payload, and no valid push token of the
same data has a shorter header. -/
theorem C08_prefix_shortest (d p : Bytes) (hne : d ≠ []) (h : GetPushDataPrefix d = .ok p) :
    (∃ t : Token, t.IsPush ∧ t.Valid ∧ t.payload = d ∧ t.bytes = p ++ d) ∧
    (∀ t : Token, t.IsPush → t.Valid → t.payload = d → p.length ≤ t.header.length) := by
  have hlen : d.length ≤ 2 ^ 32 - 1 := (C08_prefix_domain d).1.mp (by rw [h]; rfl)
  rw [getPushDataPrefix_eq d hlen] at h
  injection h with h
  subst h
  have h0 : d.length ≠ 0 := by simpa using hne
  constructor
  · refine ⟨tokenFor d, ?_, tokenFor_valid d hlen, tokenFor_payload d hne, tokenFor_bytes d⟩
    unfold tokenFor; rw [if_neg h0]; split_ifs <;> trivial
  · intro t hp hv hpl
    have hl : (tokenFor d).header.length = if d.length ≤ 75 then 1 else if d.length ≤ 0xFF then 2 else if d.length ≤ 0xFFFF then 3 else 5 := by
      unfold tokenFor; rw [if_neg h0]; split_ifs <;> simp [Token.header]
    rw [hl]
    cases t <;> simp [Token.IsPush] at hp <;> simp only [Token.payload] at hpl <;> subst hpl <;> simp only [Token.Valid] at hv <;>
      simp only [Token.header, List.length_cons, List.length_nil, leBytes_length] <;> split_ifs <;> omega

example : GetPushDataPrefix (List.replicate 76 0) = .ok [0x4c, 76] := by decide +kernel

/-- C08 (d): `EncodeParts` is the concatenation of prefix and data over the parts, and fails exactly when some part is too long. -/
theorem C08_encodeParts (parts : List Bytes) :
    ((∀ p ∈ parts, p.length ≤ 2 ^ 32 - 1) → ∃ pres : List Bytes, pres.length = parts.length ∧
        (∀ pp ∈ List.zip parts pres, GetPushDataPrefix pp.1 = .ok pp.2) ∧
        EncodeParts parts = .ok ((List.zip parts pres).flatMap fun pp => pp.2 ++ pp.1)) ∧
    ((∃ p ∈ parts, 2 ^ 32 - 1 < p.length) → (EncodeParts parts).isErr) := by
  constructor
  · intro h
    refine ⟨parts.map fun p => (tokenFor p).header, by simp, ?_, ?_⟩
    · intro pp hpp
      rw [List.zip_map_right] at hpp
      obtain ⟨⟨x, y⟩, hxy, rfl⟩ := List.mem_map.mp hpp
      have hx : x = y := by
        have : ∀ (l : List Bytes) (q : Bytes × Bytes), q ∈ List.zip l l → q.1 = q.2 := by
          intro l; induction l with
          | nil => simp
          | cons a as ih =>
            intro q hq
            simp only [List.zip_cons_cons, List.mem_cons] at hq
            rcases hq with rfl | hq
            · rfl
            · exact ih q hq
        exact this parts (x, y) hxy
      subst hx
      exact getPushDataPrefix_eq x (h x (List.of_mem_zip hxy).1)
    · refine (encodeParts_ok_iff _ _).mpr ⟨fun p hp => h p hp, ?_⟩
      clear h
      induction parts with
      | nil => rfl
      | cons p ps ih =>
        simp only [List.map_cons, List.zip_cons_cons, List.flatMap_cons, ih]
        simp [bytesOf, tokenFor_bytes]
  · rintro ⟨p, hp, hl⟩
    obtain ⟨e, he⟩ := encodeParts_err (ps := parts) (fun h => by have := h p hp; omega)
    rw [he]; rfl

/-! ## C09 -/

/-- C09 (a): when `DecodeParts` succeeds, the input is a concatenation of valid tokens and the parts are their payloads. -/
theorem C09_decode_sound (b : Bytes) (parts : List Bytes) (h : DecodePartsFull b = (parts, .done)) :
    ∃ ts : List Token, (∀ t ∈ ts, t.Valid) ∧ b = bytesOf ts ∧ parts = payloads ts := by
  have : DecodeParts b = .ok parts := by simp [DecodeParts, h]
  obtain ⟨ts, h1, _, h2, h3⟩ := decodeParts_ok this
  exact ⟨ts, h1, h2, h3⟩

/-- C09 (b): when it reports "not enough data", the returned parts are the payloads of complete tokens at the front, followed by a
truncated push. -/
theorem C09_decode_truncated (b : Bytes) (parts : List Bytes) (h : DecodePartsFull b = (parts, .notEnoughData)) :
    ∃ (ts : List Token) (rest : Bytes), (∀ t ∈ ts, t.Valid) ∧ b = bytesOf ts ++ rest ∧ parts = payloads ts ∧ Truncated rest := by
  obtain ⟨ts, rest, hv, _, hb, hc⟩ := decodePartsFull_cases b
  rcases hc with ⟨_, hc⟩ | ⟨ht, _, hc⟩ | ⟨_, hc⟩ <;> rw [hc] at h <;> simp at h
  exact ⟨ts, rest, hv, hb, h.symm, ht⟩

/-- C09 (c), converse: a concatenation of valid tokens whose PUSHDATA2/4 lengths do not overflow the decoder's additions decodes to the
payloads. -/
theorem C09_decode_complete (ts : List Token) (hv : ∀ t ∈ ts, t.Valid) (hd : ∀ t ∈ ts, Decodable t) :
    DecodeParts (bytesOf ts) = .ok (payloads ts) := decodeParts_tokens ts hv hd

/-- The tokens of a script are unique. -/
theorem C09_tokens_unique (ts us : List Token) (hts : ∀ t ∈ ts, t.Valid) (hus : ∀ t ∈ us, t.Valid)
    (h : bytesOf ts = bytesOf us) : ts = us := by
  have header_inj : ∀ (t u : Token) (r s : Bytes), t.Valid → u.Valid → t.bytes ++ r = u.bytes ++ s → t = u ∧ r = s := by
    intro t u r s ht hu h
    cases t <;> cases u <;> simp only [Token.bytes, Token.header, Token.data, Token.Valid] at h ht hu <;>
      simp only [List.cons_append, List.nil_append, List.append_nil, List.cons.injEq, List.append_assoc] at h
    case op.op o p => exact ⟨by rw [h.1], h.2⟩
    case op.direct o d => exfalso; rw [h.1] at ht; rcases ht with ht | ht
                          · have := congrArg UInt8.toNat ht; simp at this; omega
                          · rw [UInt8.lt_iff_toNat_lt] at ht; simp at ht; omega
    case op.pd1 o d => exfalso; rw [h.1] at ht; revert ht; decide
    case op.pd2 o d => exfalso; rw [h.1] at ht; revert ht; decide
    case op.pd4 o d => exfalso; rw [h.1] at ht; revert ht; decide
    case direct.op d o => exfalso; rw [← h.1] at hu; rcases hu with ht | ht
                          · have := congrArg UInt8.toNat ht; simp at this; omega
                          · rw [UInt8.lt_iff_toNat_lt] at ht; simp at ht; omega
    case direct.direct d e =>
      have hl := congrArg UInt8.toNat h.1
      simp at hl
      obtain ⟨rfl, rfl⟩ := List.append_inj h.2 (by omega)
      exact ⟨rfl, rfl⟩
    case direct.pd1 d e => exfalso; have := congrArg UInt8.toNat h.1; simp at this; omega
    case direct.pd2 d e => exfalso; have := congrArg UInt8.toNat h.1; simp at this; omega
    case direct.pd4 d e => exfalso; have := congrArg UInt8.toNat h.1; simp at this; omega
    case pd1.op d o => exfalso; rw [← h.1] at hu; revert hu; decide
    case pd1.direct d e => exfalso; have := congrArg UInt8.toNat h.1; simp at this; omega
    case pd1.pd1 d e =>
      obtain ⟨h1, h2⟩ := List.append_inj h.2 (by simp)
      have hl := leBytes_inj (by omega) (by omega) h1
      obtain ⟨rfl, rfl⟩ := List.append_inj h2 hl
      exact ⟨rfl, rfl⟩
    case pd1.pd2 d e => exfalso; revert h; simp
    case pd1.pd4 d e => exfalso; revert h; simp
    case pd2.op d o => exfalso; rw [← h.1] at hu; revert hu; decide
    case pd2.direct d e => exfalso; have := congrArg UInt8.toNat h.1; simp at this; omega
    case pd2.pd1 d e => exfalso; revert h; simp
    case pd2.pd2 d e =>
      obtain ⟨h1, h2⟩ := List.append_inj h.2 (by simp)
      have hl := leBytes_inj (by omega) (by omega) h1
      obtain ⟨rfl, rfl⟩ := List.append_inj h2 hl
      exact ⟨rfl, rfl⟩
    case pd2.pd4 d e => exfalso; revert h; simp
    case pd4.op d o => exfalso; rw [← h.1] at hu; revert hu; decide
    case pd4.direct d e => exfalso; have := congrArg UInt8.toNat h.1; simp at this; omega
    case pd4.pd1 d e => exfalso; revert h; simp
    case pd4.pd2 d e => exfalso; revert h; simp
    case pd4.pd4 d e =>
      obtain ⟨h1, h2⟩ := List.append_inj h.2 (by simp)
      have hl := leBytes_inj (by omega) (by omega) h1
      obtain ⟨rfl, rfl⟩ := List.append_inj h2 hl
      exact ⟨rfl, rfl⟩
  induction ts generalizing us with
  | nil =>
    cases us with
    | nil => rfl
    | cons u us => simp [bytesOf, Token.bytes_ne_nil] at h
  | cons t ts ih =>
    cases us with
    | nil => simp [bytesOf, Token.bytes_ne_nil] at h
    | cons u us =>
      have h' : t.bytes ++ bytesOf ts = u.bytes ++ bytesOf us := by simpa [bytesOf] using h
      obtain ⟨rfl, h2⟩ := header_inj t u _ _ (hts t (by simp)) (hus u (by simp)) h'
      rw [ih us (fun t ht => hts t (by simp [ht])) (fun t ht => hus t (by simp [ht])) h2]

example : DecodePartsFull [0x76, 0x02, 0xaa, 0xbb, 0x4c, 0x05, 0x01] = ([[0x76], [0xaa, 0xbb]], .notEnoughData) ∧
    DecodePartsFull [0x6a, 0x4d, 0x02, 0x00, 0x09, 0x08] = ([[0x6a], [9, 8]], .done) := by decide +kernel

/-! ## C10 -/

/-- C10, true part: `DecodeParts` returns normally (parts or the error) on every input in which no PUSHDATA2/PUSHDATA4 header announces an
overflow length after complete tokens. Missing from the full property: the inputs of `C10_panic_iff`. -/
theorem C10_no_panic_on_domain (b : Bytes)
    (h : ∀ (ts : List Token) (rest : Bytes), (∀ t ∈ ts, t.Valid) → b = bytesOf ts ++ rest → ¬ BadHeader rest) :
    DecodeParts b ≠ .panic := by
  obtain ⟨ts, rest, hv, _, hb, hc⟩ := decodePartsFull_cases b
  unfold DecodeParts
  rcases hc with ⟨_, hc⟩ | ⟨_, _, hc⟩ | ⟨hbad, hc⟩
  · rw [hc]; simp
  · rw [hc]; simp
  · exact absurd hbad (h ts rest hv hb)

example : DecodeParts [0x4d, 0xff] = .err "Not enough data" := by decide +kernel

/-- C10 is violated: the exact panic domain. `DecodeParts` panics if and only if, after some complete tokens, the input has
0x4d with a 16-bit length of at least 65533, or 0x4e with a 32-bit length of at least 2^32-5. -/
theorem C10_panic_iff (b : Bytes) :
    DecodeParts b = .panic ↔
      ∃ (ts : List Token) (rest lb more : Bytes), (∀ t ∈ ts, t.Valid ∧ Decodable t) ∧ b = bytesOf ts ++ rest ∧
        ((rest = 0x4d :: (lb ++ more) ∧ lb.length = 2 ∧ 65533 ≤ leNat lb) ∨
         (rest = 0x4e :: (lb ++ more) ∧ lb.length = 4 ∧ 2 ^ 32 - 5 ≤ leNat lb)) := by
  constructor
  · intro h
    obtain ⟨ts, rest, hv, hd, hb, hc⟩ := decodePartsFull_cases b
    unfold DecodeParts at h
    rcases hc with ⟨_, hc⟩ | ⟨_, _, hc⟩ | ⟨hbad, hc⟩ <;> rw [hc] at h <;> simp at h
    rcases hbad with ⟨lb, more, h1, h2, h3⟩ | ⟨lb, more, h1, h2, h3⟩
    · exact ⟨ts, rest, lb, more, fun t ht => ⟨hv t ht, hd t ht⟩, hb, Or.inl ⟨h1, h2, h3⟩⟩
    · exact ⟨ts, rest, lb, more, fun t ht => ⟨hv t ht, hd t ht⟩, hb, Or.inr ⟨h1, h2, h3⟩⟩
  · rintro ⟨ts, rest, lb, more, hts, rfl, hbad⟩
    apply decodeParts_bad_prefix ts (fun t ht => (hts t ht).1) (fun t ht => (hts t ht).2)
    rcases hbad with ⟨h1, h2, h3⟩ | ⟨h1, h2, h3⟩
    · exact Or.inl ⟨lb, more, h1, h2, h3⟩
    · exact Or.inr ⟨lb, more, h1, h2, h3⟩

/-- Concrete witness: three bytes that make the decoder panic. -/
theorem C10_violation_witness : DecodeParts [0x4d, 0xff, 0xff] = .panic := by decide +kernel

/-! ## C11 -/

/-- The append operations of a script. -/
inductive AppendOp where
  | pushData (d : Bytes)
  | pushString (str : Bytes)
  | pushHex (str : Bytes)
  | pushArray (ds : List Bytes)
  | pushStrings (strs : List Bytes)
  | opCode (o : UInt8)

/-- The call on a script (`Res`: an error leaves the receiver as it was). -/
def AppendOp.call (s : Script) : AppendOp → Res Script
  | .pushData d => AppendPushData s d
  | .pushString d => AppendPushDataString s d
  | .pushHex d => AppendPushDataHexString s d
  | .pushArray ds => AppendPushDataArray s ds
  | .pushStrings ds => AppendPushDataStrings s ds
  | .opCode o => .ok (AppendOpCode s o)

/-- The script after the call. -/
def AppendOp.run (s : Script) (a : AppendOp) : Script :=
  match a.call s with
  | .ok s' => s'
  | _ => s

/-- Specification: the parts an operation adds (none when it must fail). Pushing no data at all adds the opcode 00, which reads back as the part 00. -/
def AppendOp.adds : AppendOp → List Bytes
  | .pushData d | .pushString d => if d.length ≤ 2 ^ 32 - 1 then [asPart d] else []
  | .pushHex str => if IsHex str ∧ (hexDecodeIgnore str).length ≤ 2 ^ 32 - 1 then [asPart (hexDecodeIgnore str)] else []
  | .pushArray ds | .pushStrings ds => if ∀ d ∈ ds, d.length ≤ 2 ^ 32 - 1 then ds.map asPart else []
  | .opCode o => [[o]]
where
  /-- a pushed item as it reads back -/
  asPart (d : Bytes) : Bytes := if d = [] then [0] else d

/-- The operation succeeds and pushes an item of a length on which the decoder overflows (65533..65535 or 2^32-5..2^32-1). -/
def AppendOp.Overflows : AppendOp → Prop
  | .pushData d | .pushString d => overflowLength d.length
  | .pushHex str => IsHex str ∧ overflowLength (hexDecodeIgnore str).length
  | .pushArray ds | .pushStrings ds => (∀ d ∈ ds, d.length ≤ 2 ^ 32 - 1) ∧ ∃ d ∈ ds, overflowLength d.length
  | .opCode _ => False

/-- An opcode that is appended as such is not a push opcode (which would swallow what follows). -/
def AppendOp.Plain : AppendOp → Prop
  | .opCode o => o = 0 ∨ 0x4e < o
  | _ => True

/-- The tokens an operation adds. -/
def AppendOp.tokens : AppendOp → List Token
  | .pushData d | .pushString d => if d.length ≤ 2 ^ 32 - 1 then [tokenFor d] else []
  | .pushHex str => if IsHex str ∧ (hexDecodeIgnore str).length ≤ 2 ^ 32 - 1 then [tokenFor (hexDecodeIgnore str)] else []
  | .pushArray ds | .pushStrings ds => if ∀ d ∈ ds, d.length ≤ 2 ^ 32 - 1 then ds.map tokenFor else []
  | .opCode o => [.op o]

theorem overflow_le {n : Nat} (h : overflowLength n) : n ≤ 2 ^ 32 - 1 := by
  unfold overflowLength at h; omega

theorem asPart_eq (d : Bytes) : (tokenFor d).payload = AppendOp.adds.asPart d := by
  by_cases h : d = []
  · subst h; rfl
  · rw [tokenFor_payload d h, AppendOp.adds.asPart, if_neg h]

theorem appendArray_eq (s : Script) (ds : List Bytes) :
    (match AppendPushDataArray s ds with | .ok s' => s' | _ => s) = s ++ bytesOf (if ∀ d ∈ ds, d.length ≤ 2 ^ 32 - 1 then ds.map tokenFor else []) := by
  by_cases hl : ∀ d ∈ ds, d.length ≤ 2 ^ 32 - 1
  · have he := (encodeParts_ok_iff ds _).mpr ⟨fun d hd => hl d hd, rfl⟩
    simp only [AppendPushDataArray, he, Res.ok_bind, Res.pure_eq, if_pos hl]
  · obtain ⟨e, he⟩ := encodeParts_err (ps := ds) hl
    simp only [AppendPushDataArray, he, Res.err_bind, if_neg hl, bytesOf, List.flatMap_nil, List.append_nil]

theorem append_run (s : Script) (a : AppendOp) : a.run s = s ++ bytesOf a.tokens := by
  have one : ∀ d : Bytes, (match AppendPushData s d with | .ok s' => s' | _ => s) = s ++ bytesOf (if d.length ≤ 2 ^ 32 - 1 then [tokenFor d] else []) := by
    intro d
    have := appendArray_eq s [d]
    simpa [AppendPushDataArray, AppendPushData] using this
  cases a with
  | pushData d => exact one d
  | pushString d => exact one d
  | pushHex str =>
    simp only [AppendOp.run, AppendOp.call, AppendOp.tokens, AppendPushDataHexString]
    by_cases hh : IsHex str
    · rw [hexDecodeRes_isHex hh]
      simpa [hh] using one (hexDecodeIgnore str)
    · obtain ⟨e, he⟩ := hexDecodeRes_not_isHex hh
      simp [he, hh, bytesOf]
  | pushArray ds => exact appendArray_eq s ds
  | pushStrings ds =>
    simp only [AppendOp.run, AppendOp.call, AppendOp.tokens, AppendPushDataStrings, List.map_id]
    exact appendArray_eq s ds
  | opCode o => simp [AppendOp.run, AppendOp.call, AppendOpCode, AppendOp.tokens, bytesOf, Token.bytes, Token.header, Token.data]

theorem append_runs (s : Script) (ops : List AppendOp) : ops.foldl AppendOp.run s = s ++ bytesOf (ops.flatMap AppendOp.tokens) := by
  induction ops generalizing s with
  | nil => simp [bytesOf]
  | cons a as ih => rw [List.foldl_cons, ih, append_run, List.flatMap_cons, bytesOf_append, List.append_assoc]

theorem tokens_valid (a : AppendOp) (hp : a.Plain) : ∀ t ∈ a.tokens, t.Valid := by
  have arr : ∀ ds : List Bytes, ∀ t ∈ (if ∀ d ∈ ds, d.length ≤ 2 ^ 32 - 1 then ds.map tokenFor else []), t.Valid := by
    intro ds t ht
    split at ht
    · rename_i hl
      obtain ⟨p, h, rfl⟩ := List.mem_map.mp ht
      exact tokenFor_valid p (hl p h)
    · simp at ht
  have one : ∀ d : Bytes, ∀ t ∈ (if d.length ≤ 2 ^ 32 - 1 then [tokenFor d] else []), t.Valid := by
    intro d t ht
    split at ht
    · rename_i hl; rw [List.mem_singleton.mp ht]; exact tokenFor_valid d hl
    · simp at ht
  cases a with
  | pushData d => exact one d
  | pushString d => exact one d
  | pushHex str =>
    intro t ht
    simp only [AppendOp.tokens] at ht
    split at ht
    · rename_i hl; rw [List.mem_singleton.mp ht]; exact tokenFor_valid _ hl.2
    · simp at ht
  | pushArray ds => exact arr ds
  | pushStrings ds => exact arr ds
  | opCode o => intro t ht; rw [List.mem_singleton.mp ht]; exact hp

theorem tokens_payloads (a : AppendOp) : payloads a.tokens = a.adds := by
  have arr : ∀ ds : List Bytes, payloads (if ∀ d ∈ ds, d.length ≤ 2 ^ 32 - 1 then ds.map tokenFor else []) =
      if ∀ d ∈ ds, d.length ≤ 2 ^ 32 - 1 then ds.map AppendOp.adds.asPart else [] := by
    intro ds
    split
    · unfold payloads; rw [List.map_map]; exact List.map_congr_left fun p _ => asPart_eq p
    · rfl
  cases a with
  | pushData d => simp only [AppendOp.tokens, AppendOp.adds]; split <;> simp [payloads, asPart_eq]
  | pushString d => simp only [AppendOp.tokens, AppendOp.adds]; split <;> simp [payloads, asPart_eq]
  | pushHex str => simp only [AppendOp.tokens, AppendOp.adds]; split <;> simp [payloads, asPart_eq]
  | pushArray ds => exact arr ds
  | pushStrings ds => exact arr ds
  | opCode o => rfl

/-- Adding tokens of appends behind a decodable script, one of which overflows, makes the decoder panic. -/
theorem append_tokens_panic (ts0 : List Token) (hv0 : ∀ t ∈ ts0, t.Valid) (hd0 : ∀ t ∈ ts0, Decodable t) (ds : List (Bytes ⊕ UInt8))
    (hl : ∀ d, Sum.inl d ∈ ds → d.length ≤ 2 ^ 32 - 1) (ho : ∀ o, Sum.inr o ∈ ds → o = 0 ∨ 0x4e < o) (hx : ∃ d, Sum.inl d ∈ ds ∧ overflowLength d.length) :
    DecodeParts (bytesOf ts0 ++ bytesOf (ds.map (Sum.elim tokenFor Token.op))) = .panic := by
  induction ds generalizing ts0 with
  | nil => simp at hx
  | cons a as ih =>
    rw [List.map_cons, show bytesOf (Sum.elim tokenFor Token.op a :: as.map (Sum.elim tokenFor Token.op)) =
      (Sum.elim tokenFor Token.op a).bytes ++ bytesOf (as.map (Sum.elim tokenFor Token.op)) by simp [bytesOf]]
    by_cases ha : ∃ d, a = Sum.inl d ∧ overflowLength d.length
    · obtain ⟨d, rfl, hd⟩ := ha
      exact decodeParts_bad_prefix ts0 hv0 hd0 (badHeader_tokenFor hd _)
    · have hva : (Sum.elim tokenFor Token.op a).Valid ∧ Decodable (Sum.elim tokenFor Token.op a) := by
        rcases a with d | o
        · exact ⟨tokenFor_valid d (hl d (by simp)), tokenFor_decodable (hl d (by simp)) (fun h => ha ⟨d, rfl, h⟩)⟩
        · exact ⟨ho o (by simp), trivial⟩
      have := ih (ts0 ++ [Sum.elim tokenFor Token.op a])
        (by intro t ht; rcases List.mem_append.mp ht with h | h; exacts [hv0 t h, List.mem_singleton.mp h ▸ hva.1])
        (by intro t ht; rcases List.mem_append.mp ht with h | h; exacts [hd0 t h, List.mem_singleton.mp h ▸ hva.2])
        (fun d hd => hl d (by simp [hd])) (fun o h => ho o (by simp [h]))
        (by
          obtain ⟨d, hd, h2⟩ := hx
          refine ⟨d, ?_, h2⟩
          rcases List.mem_cons.mp hd with h | h
          · exact absurd ⟨d, h.symm, h2⟩ ha
          · exact h)
      rw [bytesOf_append, List.append_assoc] at this
      simpa [bytesOf] using this

/-- The pushed items and opcodes of an operation. -/
def AppendOp.items : AppendOp → List (Bytes ⊕ UInt8)
  | .pushData d | .pushString d => if d.length ≤ 2 ^ 32 - 1 then [.inl d] else []
  | .pushHex str => if IsHex str ∧ (hexDecodeIgnore str).length ≤ 2 ^ 32 - 1 then [.inl (hexDecodeIgnore str)] else []
  | .pushArray ds | .pushStrings ds => if ∀ d ∈ ds, d.length ≤ 2 ^ 32 - 1 then ds.map .inl else []
  | .opCode o => [.inr o]

theorem items_tokens (a : AppendOp) : a.tokens = a.items.map (Sum.elim tokenFor Token.op) := by
  cases a <;> simp only [AppendOp.tokens, AppendOp.items] <;> (try split) <;> simp

theorem items_props (a : AppendOp) (hp : a.Plain) : (∀ d, Sum.inl d ∈ a.items → d.length ≤ 2 ^ 32 - 1) ∧ (∀ o, Sum.inr o ∈ a.items → o = 0 ∨ 0x4e < o) ∧
    (a.Overflows ↔ ∃ d, Sum.inl d ∈ a.items ∧ overflowLength d.length) := by
  have one : ∀ (c : Prop) [Decidable c] (d : Bytes), (c → d.length ≤ 2 ^ 32 - 1) →
      (∀ d', (Sum.inl d' : Bytes ⊕ UInt8) ∈ (if c then [Sum.inl d] else []) → d'.length ≤ 2 ^ 32 - 1) ∧
      (∀ o, Sum.inr o ∈ (if c then [Sum.inl d] else [] : List (Bytes ⊕ UInt8)) → o = 0 ∨ 0x4e < o) ∧
      ((c ∧ overflowLength d.length) ↔ ∃ d', (Sum.inl d' : Bytes ⊕ UInt8) ∈ (if c then [Sum.inl d] else []) ∧ overflowLength d'.length) := by
    intro c _ d hc
    by_cases h : c <;> simp [h]
    have := hc h; simpa using this
  have arr : ∀ ds : List Bytes,
      (∀ d', (Sum.inl d' : Bytes ⊕ UInt8) ∈ (if ∀ d ∈ ds, d.length ≤ 2 ^ 32 - 1 then ds.map Sum.inl else []) → d'.length ≤ 2 ^ 32 - 1) ∧
      (∀ o, Sum.inr o ∈ (if ∀ d ∈ ds, d.length ≤ 2 ^ 32 - 1 then ds.map Sum.inl else [] : List (Bytes ⊕ UInt8)) → o = 0 ∨ 0x4e < o) ∧
      (((∀ d ∈ ds, d.length ≤ 2 ^ 32 - 1) ∧ ∃ d ∈ ds, overflowLength d.length) ↔
        ∃ d', (Sum.inl d' : Bytes ⊕ UInt8) ∈ (if ∀ d ∈ ds, d.length ≤ 2 ^ 32 - 1 then ds.map Sum.inl else []) ∧ overflowLength d'.length) := by
    intro ds
    by_cases h : ∀ d ∈ ds, d.length ≤ 2 ^ 32 - 1
    · rw [if_pos h]
      refine ⟨?_, ?_, ?_⟩
      · intro d hd
        obtain ⟨x, hx, e⟩ := List.mem_map.mp hd
        cases e; exact h _ hx
      · intro o ho
        obtain ⟨x, hx, e⟩ := List.mem_map.mp ho
        cases e
      · constructor
        · rintro ⟨_, d, h1, h2⟩; exact ⟨d, List.mem_map.mpr ⟨d, h1, rfl⟩, h2⟩
        · rintro ⟨d, h1, h2⟩
          obtain ⟨x, hx, e⟩ := List.mem_map.mp h1
          cases e; exact ⟨h, _, hx, h2⟩
    · rw [if_neg h]
      refine ⟨by simp, by simp, ?_⟩
      constructor
      · intro hh; exact absurd hh.1 h
      · rintro ⟨d, h1, _⟩; simp at h1
  cases a with
  | pushData d =>
    obtain ⟨h1, h2, h3⟩ := one (d.length ≤ 2 ^ 32 - 1) d id
    exact ⟨h1, h2, ⟨fun h => h3.mp ⟨overflow_le h, h⟩, fun h => (h3.mpr h).2⟩⟩
  | pushString d =>
    obtain ⟨h1, h2, h3⟩ := one (d.length ≤ 2 ^ 32 - 1) d id
    exact ⟨h1, h2, ⟨fun h => h3.mp ⟨overflow_le h, h⟩, fun h => (h3.mpr h).2⟩⟩
  | pushHex str =>
    obtain ⟨h1, h2, h3⟩ := one (IsHex str ∧ (hexDecodeIgnore str).length ≤ 2 ^ 32 - 1) (hexDecodeIgnore str) (·.2)
    exact ⟨h1, h2, ⟨fun h => h3.mp ⟨⟨h.1, overflow_le h.2⟩, h.2⟩, fun h => ⟨(h3.mpr h).1.1, (h3.mpr h).2⟩⟩⟩
  | pushArray ds => exact arr ds
  | pushStrings ds => exact arr ds
  | opCode o =>
    refine ⟨by simp [AppendOp.items], ?_, by simp [AppendOp.items, AppendOp.Overflows]⟩
    intro o' h
    simp only [AppendOp.items, List.mem_singleton, Sum.inr.injEq] at h
    rw [h]; exact hp

/-- C11 (a): after any sequence of appends — of any data, and of opcodes that are not push opcodes — to a decodable script, the decoded parts are the original
ones followed by what each append adds; unless some append pushed data of an overflow length (C07), and then decoding panics. -/
theorem C11_append_sequence (s : Script) (ps : List Bytes) (hs : DecodeParts s = .ok ps) (ops : List AppendOp) (hg : ∀ a ∈ ops, a.Plain) :
    ((∀ a ∈ ops, ¬ a.Overflows) → DecodeParts (ops.foldl AppendOp.run s) = .ok (ps ++ ops.flatMap AppendOp.adds)) ∧
    ((∃ a ∈ ops, a.Overflows) → DecodeParts (ops.foldl AppendOp.run s) = .panic) := by
  rw [append_runs]
  constructor
  · intro hn
    rw [decodeParts_append hs]
    · congr 2
      unfold payloads
      rw [List.map_flatMap]
      exact congrArg (fun f => List.flatMap f ops) (funext tokens_payloads)
    · intro t ht
      obtain ⟨a, ha, h⟩ := List.mem_flatMap.mp ht
      exact tokens_valid a (hg a ha) t h
    · intro t ht
      obtain ⟨a, ha, h⟩ := List.mem_flatMap.mp ht
      rw [items_tokens] at h
      obtain ⟨x, hx, rfl⟩ := List.mem_map.mp h
      obtain ⟨h1, h2, h3⟩ := items_props a (hg a ha)
      rcases x with d | o
      · exact tokenFor_decodable (h1 d hx) fun ho => hn a ha (h3.mpr ⟨d, hx, ho⟩)
      · trivial
  · rintro ⟨a, ha, ho⟩
    obtain ⟨ts, hv, hd, rfl, rfl⟩ := decodeParts_ok hs
    have e : ops.flatMap AppendOp.tokens = (ops.flatMap AppendOp.items).map (Sum.elim tokenFor Token.op) := by
      rw [List.map_flatMap]; exact congrArg (fun f => List.flatMap f ops) (funext items_tokens)
    rw [e]
    apply append_tokens_panic ts hv hd
    · intro d h
      obtain ⟨b, hb, h⟩ := List.mem_flatMap.mp h
      exact (items_props b (hg b hb)).1 d h
    · intro o h
      obtain ⟨b, hb, h⟩ := List.mem_flatMap.mp h
      exact (items_props b (hg b hb)).2.1 o h
    · obtain ⟨d, h1, h2⟩ := (items_props a (hg a ha)).2.2.mp ho
      exact ⟨d, List.mem_flatMap.mpr ⟨a, ha, h1⟩, h2⟩

/-- C11 (b): an append only ever adds bytes at the end, and when it fails the script is unchanged. It fails only on oversized data or
invalid hex. -/
theorem C11_append_effect (s : Script) (a : AppendOp) :
    (∃ t, a.run s = s ++ t) ∧ ((a.call s).isErr → a.run s = s) ∧ a.call s ≠ .panic := by
  have arr : ∀ ds : List Bytes, (∃ t, AppendPushDataArray s ds = .ok (s ++ t)) ∨ (∃ e, AppendPushDataArray s ds = .err e) := by
    intro ds
    unfold AppendPushDataArray
    rcases he : EncodeParts ds with b | e | _
    · left; exact ⟨b, rfl⟩
    · right; exact ⟨e, rfl⟩
    · exact absurd he (encodeParts_not_panic ds)
  have one : ∀ d : Bytes, (∃ t, AppendPushData s d = .ok (s ++ t)) ∨ (∃ e, AppendPushData s d = .err e) := fun d => arr [d]
  have hcall : (∃ t, a.call s = .ok (s ++ t)) ∨ (∃ e, a.call s = .err e) := by
    cases a with
    | pushData d => exact one d
    | pushString d => exact one d
    | pushHex str =>
      simp only [AppendOp.call, AppendPushDataHexString]
      rcases he : hexDecodeRes str with b | e | _
      · exact one b
      · right; exact ⟨e, rfl⟩
      · exact absurd he (hexDecodeRes_not_panic str)
    | pushArray ds => exact arr ds
    | pushStrings ds => simp only [AppendOp.call, AppendPushDataStrings, List.map_id]; exact arr ds
    | opCode o => left; exact ⟨[o], rfl⟩
  rcases hcall with ⟨t, h⟩ | ⟨e, h⟩
  · refine ⟨⟨t, by simp [AppendOp.run, h]⟩, by simp [h], by simp [h]⟩
  · refine ⟨⟨[], by simp [AppendOp.run, h]⟩, by simp [AppendOp.run, h], by simp [h]⟩

example : DecodeParts ([AppendOp.opCode 0x6a, .pushData [1, 2], .pushHex b!"zz", .pushArray [[3], [], [4, 5]]].foldl AppendOp.run []) =
    .ok [[0x6a], [1, 2], [3], [0], [4, 5]] := by decide +kernel

end Verif.Props
