import Verif.Props.Address
/-!
# Properties C28, C29: BIP276
-/
namespace Verif.Props
open Verif Verif.Spec

/-- Specification of the text format `^(.+?):(\d{2})(\d{2})([0-9A-Fa-f]+)([0-9A-Fa-f]{8})$` : a non-empty prefix without newline, a colon, two two-digit decimal
numbers, at least one hex digit of data, eight hex digits of checksum. -/
def IsBip276Text (text pfx d1 d2 hx cs : Bytes) : Prop :=
  text = pfx ++ [58] ++ d1 ++ d2 ++ hx ++ cs ∧ pfx ≠ [] ∧ (10 : UInt8) ∉ pfx ∧ d1.length = 2 ∧ d2.length = 2 ∧ cs.length = 8 ∧ hx ≠ [] ∧
    (∀ c ∈ d1 ++ d2, 48 ≤ c ∧ c ≤ 57) ∧ (∀ c ∈ hx ++ cs, (48 ≤ c ∧ c ≤ 57) ∨ (65 ≤ c ∧ c ≤ 70) ∨ (97 ≤ c ∧ c ≤ 102))

theorem isHexDigit_iff (c : UInt8) : isHexDigit c = true ↔ (48 ≤ c ∧ c ≤ 57) ∨ (65 ≤ c ∧ c ≤ 70) ∨ (97 ≤ c ∧ c ≤ 102) := by
  simp [isHexDigit, or_assoc]

theorem isDigit_iff (c : UInt8) : isDigit c = true ↔ 48 ≤ c ∧ c ≤ 57 := by simp [isDigit]

theorem matchTail_iff (r d1 d2 hx cs : Bytes) :
    matchTail276 r = some (d1, d2, hx, cs) ↔ r = d1 ++ d2 ++ hx ++ cs ∧ d1.length = 2 ∧ d2.length = 2 ∧ cs.length = 8 ∧ hx ≠ [] ∧
      (∀ c ∈ d1 ++ d2, isDigit c = true) ∧ (∀ c ∈ hx ++ cs, isHexDigit c = true) := by
  unfold matchTail276
  simp only
  constructor
  · intro h
    split at h
    · rename_i hc
      obtain ⟨h1, h2, h3⟩ := hc
      simp only [Option.some.injEq, Prod.mk.injEq] at h
      obtain ⟨rfl, rfl, rfl, rfl⟩ := h
      rw [List.all_eq_true] at h1 h3
      have e1 : r.take 2 ++ (r.drop 2).take 2 = r.take 4 := by
        rw [← List.take_add]
      have e2 : (r.drop 4).take ((r.drop 4).length - 8) ++ (r.drop 4).drop ((r.drop 4).length - 8) = r.drop 4 := List.take_append_drop _ _
      refine ⟨?_, by simp; omega, by simp; omega, by simp; omega, ?_, by rw [e1]; exact h1, by rw [e2]; exact h3⟩
      · rw [e1, List.append_assoc, e2, List.take_append_drop]
      · intro e; have := congrArg List.length e; simp at this; omega
    · simp at h
  · rintro ⟨rfl, h1, h2, h3, h4, h5, h6⟩
    have hl : 1 ≤ hx.length := by
      cases hx with
      | nil => exact absurd rfl h4
      | cons a as => simp
    have t4 : (d1 ++ d2 ++ hx ++ cs).take 4 = d1 ++ d2 := by
      rw [List.append_assoc, List.take_append_of_le_length (by simp; omega), List.take_of_length_le (by simp; omega)]
    have dr4 : (d1 ++ d2 ++ hx ++ cs).drop 4 = hx ++ cs := by
      rw [List.append_assoc, List.drop_append_of_le_length (by simp; omega), List.drop_of_length_le (by simp; omega), List.nil_append]
    rw [t4, dr4, if_pos ⟨by rw [List.all_eq_true]; exact h5, by simp; omega, by rw [List.all_eq_true]; exact h6⟩]
    have e1 : (d1 ++ d2 ++ hx ++ cs).take 2 = d1 := by
      rw [List.append_assoc, List.append_assoc, List.take_append_of_le_length (by omega), List.take_of_length_le (by omega)]
    have e2 : ((d1 ++ d2 ++ hx ++ cs).drop 2).take 2 = d2 := by
      rw [List.append_assoc, List.append_assoc, List.drop_append_of_le_length (by omega), List.drop_of_length_le (by omega), List.nil_append,
        List.take_append_of_le_length (by omega), List.take_of_length_le (by omega)]
    have e3 : (hx ++ cs).length - 8 = hx.length := by simp; omega
    rw [e1, e2, e3, List.take_left, List.drop_left]

theorem matchTail_noColon {r : Bytes} {m : Bytes × Bytes × Bytes × Bytes} (h : matchTail276 r = some m) : (58 : UInt8) ∉ r := by
  obtain ⟨d1, d2, hx, cs⟩ := m
  obtain ⟨rfl, _, _, _, _, h5, h6⟩ := (matchTail_iff _ _ _ _ _).mp h
  intro hc
  rw [List.append_assoc] at hc
  rcases List.mem_append.mp hc with hc | hc
  · exact absurd (h5 _ hc) (by decide)
  · exact absurd (h6 _ hc) (by decide)

theorem matchBIP276_iff (t : Bytes) : ∀ (pre p : Bytes) (m : Bytes × Bytes × Bytes × Bytes),
    matchBIP276 pre t = some (p, m) ↔ ∃ mid tail, t = mid ++ 58 :: tail ∧ p = pre.reverse ++ mid ∧ p ≠ [] ∧ (10 : UInt8) ∉ mid ∧ matchTail276 tail = some m := by
  induction t with
  | nil => intro pre p m; simp [matchBIP276]
  | cons c cs ih =>
    intro pre p m
    have rec1 : matchBIP276 (c :: pre) cs = some (p, m) ↔ ∃ mid tail, c :: cs = c :: (mid ++ 58 :: tail) ∧ p = pre.reverse ++ (c :: mid) ∧ p ≠ [] ∧ (10 : UInt8) ∉ mid ∧ matchTail276 tail = some m := by
      rw [ih]; simp
    -- a match that starts with `mid = []` or `mid = c :: _`
    have split : (∃ mid tail, c :: cs = mid ++ 58 :: tail ∧ p = pre.reverse ++ mid ∧ p ≠ [] ∧ (10 : UInt8) ∉ mid ∧ matchTail276 tail = some m) ↔
        (c = 58 ∧ p = pre.reverse ∧ p ≠ [] ∧ matchTail276 cs = some m) ∨
        (c ≠ 10 ∧ ∃ mid tail, c :: cs = c :: (mid ++ 58 :: tail) ∧ p = pre.reverse ++ (c :: mid) ∧ p ≠ [] ∧ (10 : UInt8) ∉ mid ∧ matchTail276 tail = some m) := by
      constructor
      · rintro ⟨mid, tail, h1, h2, h3, h4, h5⟩
        cases mid with
        | nil =>
          simp only [List.nil_append, List.cons.injEq] at h1
          left; exact ⟨h1.1, by simpa using h2, h3, by rw [h1.2]; exact h5⟩
        | cons x mid =>
          simp only [List.cons_append, List.cons.injEq] at h1
          obtain ⟨rfl, h1⟩ := h1
          right
          exact ⟨fun e => h4 (by simp [e]), mid, tail, by rw [h1], h2, h3, fun hm => h4 (by simp [hm]), h5⟩
      · rintro (⟨rfl, h2, h3, h4⟩ | ⟨hc, mid, tail, h1, h2, h3, h4, h5⟩)
        · exact ⟨[], cs, rfl, by simpa using h2, h3, by simp, h4⟩
        · exact ⟨c :: mid, tail, by rw [h1]; rfl, h2, h3, by simp [h4, Ne.symm hc], h5⟩
    rw [split]
    simp only [matchBIP276]
    by_cases hc : c = 58 ∧ pre ≠ []
    · obtain ⟨rfl, hpre⟩ := hc
      rw [if_pos ⟨rfl, hpre⟩]
      cases ht : matchTail276 cs with
      | some m' =>
        simp only [Option.some.injEq, Prod.mk.injEq]
        constructor
        · rintro ⟨rfl, rfl⟩; left; exact ⟨trivial, rfl, by simpa using hpre, rfl⟩
        · rintro (⟨_, rfl, _, rfl⟩ | ⟨_, mid, tail, h1, _, _, _, h5⟩)
          · exact ⟨rfl, rfl⟩
          · exfalso
            simp only [List.cons.injEq, true_and] at h1
            exact matchTail_noColon ht (by rw [h1]; simp)
      | none =>
        simp only
        rw [rec1]
        simp
    · rw [if_neg hc]
      by_cases h10 : c = 10
      · subst h10; simp
      · rw [if_neg h10, rec1]
        constructor
        · intro h; right; exact ⟨h10, h⟩
        · rintro (⟨rfl, rfl, h3, _⟩ | ⟨_, h⟩)
          · exfalso; apply hc; exact ⟨rfl, by simpa using h3⟩
          · exact h

/-- The regular expression, as modelled, matches exactly the specified texts (and in at most one way). -/
theorem match_iff (text pfx d1 d2 hx cs : Bytes) :
    matchBIP276 [] text = some (pfx, d1, d2, hx, cs) ↔ IsBip276Text text pfx d1 d2 hx cs := by
  rw [matchBIP276_iff]
  unfold IsBip276Text
  constructor
  · rintro ⟨mid, tail, rfl, h2, h3, h4, h5⟩
    obtain ⟨rfl, g1, g2, g3, g4, g5, g6⟩ := (matchTail_iff _ _ _ _ _).mp h5
    simp only [List.reverse_nil, List.nil_append] at h2
    subst h2
    exact ⟨by simp, h3, h4, g1, g2, g3, g4, fun c hc => (isDigit_iff c).mp (g5 c hc), fun c hc => (isHexDigit_iff c).mp (g6 c hc)⟩
  · rintro ⟨rfl, h3, h4, g1, g2, g3, g4, g5, g6⟩
    refine ⟨pfx, d1 ++ d2 ++ hx ++ cs, by simp, by simp, h3, h4, (matchTail_iff _ _ _ _ _).mpr ⟨rfl, g1, g2, g3, g4, ?_, ?_⟩⟩
    · intro c hc; exact (isDigit_iff c).mpr (g5 c hc)
    · intro c hc; exact (isHexDigit_iff c).mpr (g6 c hc)

/-- The checksum of a text in the order `createBIP276` hashes it. -/
def payload276 (pfx : Bytes) (first second : Int) (data : Bytes) : Bytes := pfx ++ [58] ++ fmt2x first ++ fmt2x second ++ hexEncode data

theorem fmt2x_small : ∀ n : Fin 256, fmt2x (n.val : Int) = [hexChar (UInt8.ofNat (n.val / 16)), hexChar (UInt8.ofNat (n.val % 16))] := by decide +kernel

theorem fmt2x_length (n : Int) (h1 : 1 ≤ n) (h2 : n ≤ 255) : (fmt2x n).length = 2 := by
  obtain ⟨k, rfl⟩ : ∃ k : Nat, n = k := ⟨n.toNat, by omega⟩
  rw [fmt2x_small ⟨k, by omega⟩]; rfl

theorem hexDigits_encode (b : Bytes) : ∀ c ∈ hexEncode b, isHexDigit c = true := by
  have : ∀ x : UInt8, isHexDigit (hexChar (x >>> 4)) = true ∧ isHexDigit (hexChar (x &&& 15)) = true := by apply forall_uint8; decide +kernel
  induction b with
  | nil => simp [hexEncode]
  | cons x xs ih =>
    intro c hc
    simp only [hexEncode, List.mem_cons] at hc
    rcases hc with rfl | rfl | hc
    · exact (this x).1
    · exact (this x).2
    · exact ih c hc

/-- The text made by `EncodeBIP276` in the valid range. -/
theorem encode_eq (H : HashFns) (pfx : Bytes) (network version : Int) (data : Bytes) (hn : 1 ≤ network ∧ network ≤ 255) (hv : 1 ≤ version ∧ version ≤ 255) :
    EncodeBIP276 H pfx network version data = pfx ++ [58] ++ fmt2x network ++ fmt2x version ++ hexEncode data ++
      hexEncode ((H.sha256 (H.sha256 (payload276 pfx network version data))).take 4) := by
  unfold EncodeBIP276
  rw [if_neg (by omega)]
  rfl

/-- When the text made by `EncodeBIP276` matches the decoder's pattern. -/
theorem encode_matches (H : HashFns) (pfx : Bytes) (network version : Int) (data : Bytes) (hn : 1 ≤ network ∧ network ≤ 255) (hv : 1 ≤ version ∧ version ≤ 255)
    (r : Bytes × Bytes × Bytes × Bytes × Bytes) :
    matchBIP276 [] (EncodeBIP276 H pfx network version data) = some r ↔
      (pfx ≠ [] ∧ (10 : UInt8) ∉ pfx ∧ data ≠ [] ∧ ∀ c ∈ fmt2x network ++ fmt2x version, 48 ≤ c ∧ c ≤ 57) ∧
      r = (pfx, fmt2x network, fmt2x version, hexEncode data, hexEncode ((H.sha256 (H.sha256 (payload276 pfx network version data))).take 4)) := by
  obtain ⟨p, d1, d2, hx, cs⟩ := r
  have l1 := fmt2x_length network hn.1 hn.2
  have l2 := fmt2x_length version hv.1 hv.2
  have lc : (hexEncode ((H.sha256 (H.sha256 (payload276 pfx network version data))).take 4)).length = 8 := by
    rw [hexEncode_length, checksum_length]
  set cs0 := hexEncode ((H.sha256 (H.sha256 (payload276 pfx network version data))).take 4) with hcs0
  rw [match_iff, encode_eq H pfx network version data hn hv, ← hcs0]
  constructor
  · rintro ⟨e, h1, h2, h3, h4, h5, h6, h7, h8⟩
    -- compare the parts after the last colon
    have tailL : (58 : UInt8) ∉ d1 ++ d2 ++ hx ++ cs := by
      intro hc
      rw [List.append_assoc] at hc
      rcases List.mem_append.mp hc with hc | hc
      · exact absurd (h7 _ hc) (by decide)
      · exact absurd (h8 _ hc) (by decide)
    have tailR : (58 : UInt8) ∉ fmt2x network ++ fmt2x version ++ hexEncode data ++ cs0 := by
      have nf : ∀ n : Int, 1 ≤ n → n ≤ 255 → (58 : UInt8) ∉ fmt2x n := by
        intro n g1 g2
        obtain ⟨k, rfl⟩ : ∃ k : Nat, n = k := ⟨n.toNat, by omega⟩
        have : ∀ n : Fin 256, (58 : UInt8) ∉ fmt2x (n.val : Int) := by decide +kernel
        exact this ⟨k, by omega⟩
      have nh : ∀ b : Bytes, (58 : UInt8) ∉ hexEncode b := fun b hb => absurd (hexDigits_encode b _ hb) (by decide)
      simp only [List.mem_append, not_or]
      exact ⟨⟨⟨nf _ hn.1 hn.2, nf _ hv.1 hv.2⟩, nh _⟩, nh _⟩
    have key : ∀ (a b x y : Bytes), (58 : UInt8) ∉ x → (58 : UInt8) ∉ y → a ++ 58 :: x = b ++ 58 :: y → a = b ∧ x = y := by
      intro a
      induction a with
      | nil =>
        intro b x y hx hy h
        cases b with
        | nil => simp at h; exact ⟨rfl, h⟩
        | cons c b =>
          simp only [List.nil_append, List.cons_append, List.cons.injEq] at h
          exact absurd (by rw [h.2]; simp) hx
      | cons c a ih =>
        intro b x y hx hy h
        cases b with
        | nil =>
          simp only [List.nil_append, List.cons_append, List.cons.injEq] at h
          exact absurd (by rw [← h.2]; simp) hy
        | cons c' b =>
          simp only [List.cons_append, List.cons.injEq] at h
          obtain ⟨r1, r2⟩ := ih b x y hx hy h.2
          exact ⟨by rw [h.1, r1], r2⟩
    obtain ⟨rfl, e⟩ := key pfx p _ _ tailR tailL (by simpa [List.append_assoc] using e)
    have e' : fmt2x network ++ (fmt2x version ++ (hexEncode data ++ cs0)) = d1 ++ (d2 ++ (hx ++ cs)) := by simpa [List.append_assoc] using e
    obtain ⟨rfl, e1⟩ := List.append_inj e' (by omega)
    obtain ⟨rfl, e2⟩ := List.append_inj e1 (by omega)
    obtain ⟨rfl, rfl⟩ := List.append_inj' e2 (by omega)
    refine ⟨⟨h1, h2, ?_, h7⟩, rfl⟩
    rintro rfl; exact h6 rfl
  · rintro ⟨⟨h1, h2, h3, h4⟩, e⟩
    simp only [Prod.mk.injEq] at e
    obtain ⟨rfl, rfl, rfl, rfl, rfl⟩ := e
    refine ⟨rfl, h1, h2, l1, l2, lc, ?_, h4, ?_⟩
    · intro e; have := congrArg List.length e; rw [hexEncode_length] at this; simp at this; exact h3 this
    · intro c hc
      rcases List.mem_append.mp hc with hc | hc
      · exact (isHexDigit_iff c).mp (hexDigits_encode _ _ hc)
      · exact (isHexDigit_iff c).mp (hexDigits_encode _ _ hc)

theorem atoi_fmt2x : ∀ n : Fin 256, (∀ c ∈ fmt2x (n.val : Int), 48 ≤ c ∧ c ≤ 57) → atoi (fmt2x (n.val : Int)) ≤ n.val ∧ (atoi (fmt2x (n.val : Int)) = n.val → n.val ≤ 9) := by
  decide +kernel

theorem fmt2x_digit : ∀ n : Fin 10, (∀ c ∈ fmt2x (n.val : Int), 48 ≤ c ∧ c ≤ 57) ∧ atoi (fmt2x (n.val : Int)) = n.val := by decide +kernel

/-- C28, exact domain, for every hash function: the round trip holds if and only if network and version are the *same* number in 1..9, the prefix is not empty and
has no newline, and the data is not empty. For all other networks, versions, prefixes and data C28 is violated. -/
theorem C28_roundtrip_iff (H : HashFns) (pfx : Bytes) (network version : Int) (data : Bytes) (hn : 1 ≤ network ∧ network ≤ 255) (hv : 1 ≤ version ∧ version ≤ 255) :
    DecodeBIP276 H (EncodeBIP276 H pfx network version data) = .ok { pfx := pfx, version := version, network := network, data := data } ↔
      network = version ∧ version ≤ 9 ∧ pfx ≠ [] ∧ (10 : UInt8) ∉ pfx ∧ data ≠ [] := by
  obtain ⟨n, rfl⟩ : ∃ k : Nat, network = k := ⟨network.toNat, by omega⟩
  obtain ⟨v, rfl⟩ : ∃ k : Nat, version = k := ⟨version.toNat, by omega⟩
  have hn' : n < 256 := by omega
  have hv' : v < 256 := by omega
  constructor
  · intro h
    unfold DecodeBIP276 at h
    rcases hm : matchBIP276 [] (EncodeBIP276 H pfx n v data) with _ | r
    · rw [hm] at h; simp at h
    · rw [hm] at h
      obtain ⟨⟨h1, h2, h3, h4⟩, rfl⟩ := (encode_matches H pfx n v data hn hv r).mp hm
      simp only [hexDecodeRes_encode, Res.ok_bind] at h
      split at h
      · simp at h
      · simp only [Res.pure_eq, Res.ok.injEq, BIP276.mk.injEq, and_true, true_and, Nat.cast_inj] at h
        have a1 := atoi_fmt2x ⟨n, hn'⟩ (fun c hc => h4 c (List.mem_append_left _ hc))
        have a2 := atoi_fmt2x ⟨v, hv'⟩ (fun c hc => h4 c (List.mem_append_right _ hc))
        simp only at a1 a2
        rw [h.1] at a1
        rw [h.2] at a2
        have : n = v := by omega
        subst this
        exact ⟨rfl, by have := a1.2 rfl; omega, h1, h2, h3⟩
  · rintro ⟨e, h9, h1, h2, h3⟩
    have e : n = v := by omega
    subst e
    obtain ⟨hd, ha⟩ := fmt2x_digit ⟨n, by omega⟩
    simp only at hd ha
    unfold DecodeBIP276
    rw [(encode_matches H pfx n n data hn hv _).mpr ⟨⟨h1, h2, h3, by intro c hc; rcases List.mem_append.mp hc with hc | hc <;> exact hd c hc⟩, rfl⟩]
    simp only [hexDecodeRes_encode, Res.ok_bind, ha]
    rw [if_neg]
    · rfl
    · simp [createBIP276, payload276, Sha256d, Sha256]

/-- C28, true part: the round trip for equal network and version in 1..9, non-empty prefix without newline, non-empty data.
Missing from the full property: everything else (see `C28_roundtrip_iff`). -/
theorem C28_roundtrip_on_domain (H : HashFns) (pfx : Bytes) (k : Int) (data : Bytes) (hk : 1 ≤ k ∧ k ≤ 9) (h1 : pfx ≠ []) (h2 : (10 : UInt8) ∉ pfx) (h3 : data ≠ []) :
    DecodeBIP276 H (EncodeBIP276 H pfx k k data) = .ok { pfx := pfx, version := k, network := k, data := data } :=
  (C28_roundtrip_iff H pfx k k data (by omega) (by omega)).mpr ⟨rfl, hk.2, h1, h2, h3⟩

example : DecodeBIP276 toyH (EncodeBIP276 toyH b!"bitcoin-script" 1 1 [0xab, 0xcd]) = .ok ⟨b!"bitcoin-script", 1, 1, [0xab, 0xcd]⟩ := by decide +kernel

/-- C28 violations for every hash function: a network or version of 10 (or anything with a hex letter), or empty data, makes the decoder panic on the encoder's output; and
network 1, version 2 is refused unless two different payloads happen to have the same 4-byte checksum. -/
theorem C28_violation (H : HashFns) (pfx data : Bytes) :
    DecodeBIP276 H (EncodeBIP276 H pfx 10 1 data) = .panic ∧
    DecodeBIP276 H (EncodeBIP276 H pfx 1 1 []) = .panic ∧
    DecodeBIP276 H (EncodeBIP276 H [] 1 1 data) = .panic ∧
    ((H.sha256 (H.sha256 (payload276 pfx 1 2 data))).take 4 ≠ (H.sha256 (H.sha256 (payload276 pfx 2 1 data))).take 4 →
      ¬ (DecodeBIP276 H (EncodeBIP276 H pfx 1 2 data)).isOk) := by
  have noMatch : ∀ (p : Bytes) (n v : Int) (d : Bytes), (hn : 1 ≤ n ∧ n ≤ 255) → (hv : 1 ≤ v ∧ v ≤ 255) →
      ¬ (p ≠ [] ∧ (10 : UInt8) ∉ p ∧ d ≠ [] ∧ ∀ c ∈ fmt2x n ++ fmt2x v, 48 ≤ c ∧ c ≤ 57) → DecodeBIP276 H (EncodeBIP276 H p n v d) = .panic := by
    intro p n v d hn hv h
    unfold DecodeBIP276
    rcases hm : matchBIP276 [] (EncodeBIP276 H p n v d) with _ | r
    · rfl
    · exact absurd ((encode_matches H p n v d hn hv r).mp hm).1 h
  refine ⟨?_, ?_, ?_, ?_⟩
  · apply noMatch _ _ _ _ (by omega) (by omega)
    rintro ⟨_, _, _, h⟩
    exact absurd (h 97 (by decide)) (by decide)
  · apply noMatch _ _ _ _ (by omega) (by omega)
    rintro ⟨_, _, h, _⟩; exact h rfl
  · apply noMatch _ _ _ _ (by omega) (by omega)
    rintro ⟨h, _⟩; exact h rfl
  · intro hne h
    unfold DecodeBIP276 at h
    rcases hm : matchBIP276 [] (EncodeBIP276 H pfx 1 2 data) with _ | r
    · rw [hm] at h; simp at h
    · rw [hm] at h
      obtain ⟨_, rfl⟩ := (encode_matches H pfx 1 2 data (by omega) (by omega) r).mp hm
      have a1 : atoi (fmt2x 1) = 1 := by decide +kernel
      have a2 : atoi (fmt2x 2) = 2 := by decide +kernel
      simp only [hexDecodeRes_encode, Res.ok_bind, a1, a2] at h
      rw [if_pos] at h
      · simp at h
      · intro e
        exact hne (hexEncode_inj e)

/-! ## C29 -/

/-- C29 (a), soundness: a successful decode means that the text has the documented shape and its checksum is the first four bytes of the double SHA256 of the re-encoded
payload (with the two numbers in the order network, version, i.e. swapped with respect to the text). -/
theorem C29_decode_sound (H : HashFns) (text : Bytes) (r : BIP276) (h : DecodeBIP276 H text = .ok r) :
    ∃ d1 d2 hx cs, IsBip276Text text r.pfx d1 d2 hx cs ∧ r.version = atoi d1 ∧ r.network = atoi d2 ∧ hexDecodeRes hx = .ok r.data ∧
      cs = hexEncode ((H.sha256 (H.sha256 (r.pfx ++ [58] ++ fmt2x r.network ++ fmt2x r.version ++ hexEncode r.data))).take 4) := by
  unfold DecodeBIP276 at h
  rcases hm : matchBIP276 [] text with _ | ⟨p, d1, d2, hx, cs⟩
  · rw [hm] at h; simp at h
  · rw [hm] at h
    have ht := (match_iff _ _ _ _ _ _).mp hm
    simp only at h
    obtain ⟨data, hd, h⟩ := Res.bind_eq_ok.mp h
    split at h
    · simp at h
    · rename_i hc
      simp only [Res.pure_eq, Res.ok.injEq] at h
      subst h
      exact ⟨d1, d2, hx, cs, ht, rfl, rfl, hd, not_not.mp hc⟩

/-- C29 (b) is violated: `DecodeBIP276` panics on exactly the texts that do not have the documented shape. -/
theorem C29_panic_iff (H : HashFns) (text : Bytes) :
    DecodeBIP276 H text = .panic ↔ ¬ ∃ pfx d1 d2 hx cs, IsBip276Text text pfx d1 d2 hx cs := by
  unfold DecodeBIP276
  rcases hm : matchBIP276 [] text with _ | ⟨p, d1, d2, hx, cs⟩
  · simp only [true_iff]
    rintro ⟨p, d1, d2, hx, cs, h⟩
    rw [(match_iff _ _ _ _ _ _).mpr h] at hm
    simp at hm
  · simp only [Res.bind_eq_panic]
    constructor
    · rintro (h | ⟨data, _, h⟩)
      · exact absurd h (hexDecodeRes_not_panic _)
      · split at h <;> simp at h
    · intro h; exact absurd ⟨p, d1, d2, hx, cs, (match_iff _ _ _ _ _ _).mp hm⟩ h

/-- C29 (b), true part: no panic on texts of the documented shape. Missing: all other texts. -/
theorem C29_no_panic_on_domain (H : HashFns) (text pfx d1 d2 hx cs : Bytes) (h : IsBip276Text text pfx d1 d2 hx cs) : DecodeBIP276 H text ≠ .panic := by
  rw [Ne, C29_panic_iff, not_not]
  exact ⟨pfx, d1, d2, hx, cs, h⟩

example : IsBip276Text b!"bitcoin-script:0101abcd12345678" b!"bitcoin-script" b!"01" b!"01" b!"abcd" b!"12345678" := by
  unfold IsBip276Text; decide +kernel

/-- C29 violation, also reachable through `ValidateAddress`. -/
theorem C29_violation_witness (H : HashFns) :
    DecodeBIP276 H [] = .panic ∧ DecodeBIP276 H b!"bitcoin-script:0101ab" = .panic ∧ ValidateAddress H b!"bitcoin-script:" = .panic := ⟨rfl, rfl, rfl⟩

end Verif.Props
