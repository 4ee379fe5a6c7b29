import Verif.Props.Bip276Encode
import Verif.Props.Text
/-!
# C100: what `DecodeBIP276` and `ValidateAddress` accept
-/
namespace Verif.Props
open Verif Verif.Spec

/-- Two decimal digits. -/
def twoDigits (n : Nat) : Bytes := [UInt8.ofNat (48 + n / 10), UInt8.ofNat (48 + n % 10)]

/-- A text `DecodeBIP276` should read as these values, according to its own conventions: prefix, colon, version and network as two *decimal* digits each, the data in hex of either case, and the
checksum, in lower-case hex, of the text with network and version in the opposite order and as two *hex* digits each. -/
def ReadsAsBip276 (H : HashFns) (text : Bytes) (pfx : Bytes) (version network : UInt8) (data : Bytes) : Prop :=
  version < 100 ∧ network < 100 ∧ pfx ≠ [] ∧ (10 : UInt8) ∉ pfx ∧ data ≠ [] ∧
    ∃ hx, HexText hx ∧ hexEncode data = hx.map lowerChar ∧
      text = pfx ++ b!":" ++ twoDigits version.toNat ++ twoDigits network.toNat ++ hx ++
        hexEncode ((H.sha256 (H.sha256 (pfx ++ b!":" ++ hexEncode [network] ++ hexEncode [version] ++ hexEncode data))).take 4)

theorem digits_atoi (d : Bytes) (hl : d.length = 2) (hd : ∀ c ∈ d, 48 ≤ c ∧ c ≤ 57) : atoi d < 100 ∧ d = twoDigits (atoi d) := by
  obtain ⟨a, b, rfl⟩ : ∃ a b, d = [a, b] := by
    rcases d with _ | ⟨a, _ | ⟨b, _ | ⟨c, t⟩⟩⟩ <;> simp at hl
    exact ⟨a, b, rfl⟩
  have ha := hd a (by simp)
  have hb := hd b (by simp)
  have e48 : (48 : UInt8).toNat = 48 := rfl
  have e57 : (57 : UInt8).toNat = 57 := rfl
  rw [UInt8.le_iff_toNat_le, UInt8.le_iff_toNat_le, e48, e57] at ha hb
  have : atoi [a, b] = (a.toNat - 48) * 10 + (b.toNat - 48) := by simp [atoi]
  rw [this]
  refine ⟨by omega, ?_⟩
  unfold twoDigits
  congr 1
  · apply UInt8.toNat_inj.mp; rw [UInt8.toNat_ofNat']; omega
  · congr 1
    apply UInt8.toNat_inj.mp; rw [UInt8.toNat_ofNat']; omega

theorem twoDigits_spec : ∀ n : Fin 100, (twoDigits n.val).length = 2 ∧ (∀ c ∈ twoDigits n.val, 48 ≤ c ∧ c ≤ 57) ∧ atoi (twoDigits n.val) = n.val := by decide +kernel

theorem hexDecodeRes_text (t d : Bytes) : hexDecodeRes t = .ok d ↔ HexText t ∧ hexEncode d = t.map lowerChar := by
  have := (C73_parse_iff t d).1
  have e : Script.NewFromHexString t = hexDecodeRes t := by
    unfold Script.NewFromHexString
    cases hexDecodeRes t <;> rfl
  rw [e] at this
  exact this

/-- C100: what `DecodeBIP276` reads, exactly. -/
theorem C100_decode_iff (H : HashFns) (text : Bytes) (r : BIP276) :
    DecodeBIP276 H text = .ok r ↔ ∃ version network : UInt8, r.version = version.toNat ∧ r.network = network.toNat ∧ ReadsAsBip276 H text r.pfx version network r.data := by
  constructor
  · intro h
    obtain ⟨d1, d2, hx, cs, ⟨ht, hp, h10, l1, l2, l3, hne, hdig, hhex⟩, hv, hn, hd, hcs⟩ := C29_decode_sound H text r h
    obtain ⟨b1, e1⟩ := digits_atoi d1 l1 (fun c hc => hdig c (by simp [hc]))
    obtain ⟨b2, e2⟩ := digits_atoi d2 l2 (fun c hc => hdig c (by simp [hc]))
    have v1 : (UInt8.ofNat (atoi d1)).toNat = atoi d1 := by rw [UInt8.toNat_ofNat']; omega
    have v2 : (UInt8.ofNat (atoi d2)).toNat = atoi d2 := by rw [UInt8.toNat_ofNat']; omega
    have e100 : (100 : UInt8).toNat = 100 := rfl
    obtain ⟨g1, g2⟩ := (hexDecodeRes_text _ _).mp hd
    refine ⟨UInt8.ofNat (atoi d1), UInt8.ofNat (atoi d2), by rw [hv, v1], by rw [hn, v2], ?_, ?_, hp, h10, ?_, hx, g1, g2, ?_⟩
    · rw [UInt8.lt_iff_toNat_lt, v1, e100]; exact b1
    · rw [UInt8.lt_iff_toNat_lt, v2, e100]; exact b2
    · intro e
      rw [e] at g2
      have := congrArg List.length g2
      simp [hexEncode] at this
      exact hne (List.length_eq_zero_iff.mp this.symm)
    · have f1 := fmt2x_byte (UInt8.ofNat (atoi d1))
      have f2 := fmt2x_byte (UInt8.ofNat (atoi d2))
      rw [v1] at f1
      rw [v2] at f2
      rw [hv, hn, f1, f2] at hcs
      rw [v1, v2, ← e1, ← e2, ht, hcs]
  · rintro ⟨version, network, hv, hn, h1, h2, hp, h10, hne, hx, g1, g2, ht⟩
    rw [UInt8.lt_iff_toNat_lt] at h1 h2
    obtain ⟨a1, a2, a3⟩ := twoDigits_spec ⟨version.toNat, h1⟩
    obtain ⟨b1, b2, b3⟩ := twoDigits_spec ⟨network.toNat, h2⟩
    simp only at a1 a2 a3 b1 b2 b3
    have hm : matchBIP276 [] text = some (r.pfx, twoDigits version.toNat, twoDigits network.toNat, hx,
        hexEncode ((H.sha256 (H.sha256 (r.pfx ++ b!":" ++ hexEncode [network] ++ hexEncode [version] ++ hexEncode r.data))).take 4)) := by
      rw [match_iff]
      refine ⟨ht, hp, h10, a1, b1, by rw [hexEncode_length, checksum_length], ?_, ?_, ?_⟩
      · rintro rfl
        have := congrArg List.length g2
        rw [hexEncode_length] at this
        simp at this
        exact hne this
      · intro c hc
        rcases List.mem_append.mp hc with hc | hc
        · exact a2 c hc
        · exact b2 c hc
      · intro c hc
        rcases List.mem_append.mp hc with hc | hc
        · rcases g1.2 c hc with h | h | h
          · exact Or.inl h
          · exact Or.inr (Or.inr h)
          · exact Or.inr (Or.inl h)
        · exact (isHexDigit_iff c).mp (hexDigits_encode _ c hc)
    unfold DecodeBIP276
    rw [hm]
    dsimp only
    rw [(hexDecodeRes_text hx r.data).mpr ⟨g1, g2⟩, Res.ok_bind, a3, b3, if_neg]
    · rw [Res.pure_eq, ← hv, ← hn]
    · rw [not_not]
      unfold createBIP276
      dsimp only
      rw [fmt2x_byte, fmt2x_byte]
      rfl

/-- C100: the outcomes of `ValidateAddress` on a text that begins with `bitcoin-script:`. It is true exactly for the texts `DecodeBIP276` reads, panics exactly on the texts without the
documented shape, and is an error otherwise. -/
theorem C100_validate (H : HashFns) (text : Bytes) (hp : bip276Prefix <+: text) :
    (ValidateAddress H text = .ok true ↔ ∃ pfx version network data, ReadsAsBip276 H text pfx version network data) ∧
    (ValidateAddress H text = .panic ↔ ¬ ∃ pfx d1 d2 hx cs, IsBip276Text text pfx d1 d2 hx cs) ∧
    ValidateAddress H text ≠ .ok false := by
  have e : ValidateAddress H text = match DecodeBIP276 H text with
    | .ok _ => .ok true
    | .err _ => .err "bitcoin-script invalid"
    | .panic => .panic := by
    unfold ValidateAddress
    rw [if_pos (by simpa [List.isPrefixOf_iff_prefix, bip276Prefix] using hp)]
    cases DecodeBIP276 H text <;> rfl
  rw [e, ← C29_panic_iff H text]
  refine ⟨?_, ?_, ?_⟩
  · rcases h : DecodeBIP276 H text with r | m | _
    · simp only [true_iff]
      obtain ⟨v, n, _, _, hr⟩ := (C100_decode_iff H text r).mp h
      exact ⟨_, v, n, _, hr⟩
    · simp only [reduceCtorEq, false_iff]
      rintro ⟨pfx, v, n, data, hr⟩
      have := (C100_decode_iff H text ⟨pfx, v.toNat, n.toNat, data⟩).mpr ⟨v, n, rfl, rfl, hr⟩
      rw [h] at this; cases this
    · simp only [reduceCtorEq, false_iff]
      rintro ⟨pfx, v, n, data, hr⟩
      have := (C100_decode_iff H text ⟨pfx, v.toNat, n.toNat, data⟩).mpr ⟨v, n, rfl, rfl, hr⟩
      rw [h] at this; cases this
  · rcases h : DecodeBIP276 H text with r | m | _ <;> simp
  · rcases h : DecodeBIP276 H text with r | m | _ <;> simp

/-- C100 (deviation): `ValidateAddress` does not check that the prefix is `bitcoin-script`: for every continuation of it without a line break there is a text that is valid and has that prefix. -/
theorem C100_other_prefix (H : HashFns) (more data : Bytes) (h : (10 : UInt8) ∉ more) (hd : data ≠ []) :
    ∃ text, bip276Prefix <+: text ∧ ValidateAddress H text = .ok true ∧ DecodeBIP276 H text = .ok ⟨bip276Prefix ++ more, 1, 1, data⟩ := by
  have h10 : (10 : UInt8) ∉ bip276Prefix ++ more := by
    rw [List.mem_append, not_or]; exact ⟨by decide, h⟩
  have hdec := C28_roundtrip_on_domain H (bip276Prefix ++ more) 1 data (by omega) (by simp [bip276Prefix]) h10 hd
  have hpre : bip276Prefix <+: EncodeBIP276 H (bip276Prefix ++ more) 1 1 data := by
    have := C94_text H (bip276Prefix ++ more) 1 1 data (by decide) (by decide)
    have e1 : ((1 : UInt8).toNat : Int) = 1 := rfl
    rw [e1] at this
    rw [this]
    unfold bip276Text
    dsimp only
    simp only [List.append_assoc]
    exact List.prefix_append _ _
  refine ⟨_, hpre, ?_, hdec⟩
  rw [(C100_validate H _ hpre).1]
  obtain ⟨v, n, _, _, hr⟩ := (C100_decode_iff H _ _).mp hdec
  exact ⟨_, v, n, _, hr⟩

/-- non-vacuity: such texts, one with a hex letter in upper case -/
example : ∃ cs, ReadsAsBip276 toyH (b!"bitcoin-script:0112aB" ++ cs) b!"bitcoin-script" 1 12 [0xab] :=
  ⟨_, by decide, by decide, by decide, by decide, by decide, b!"aB", ⟨by decide, by decide⟩, by decide, by rfl⟩

end Verif.Props
