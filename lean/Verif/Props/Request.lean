import Verif.Spec.Request
import Verif.Spec.Typo
import Verif.Props.Bip276Decode
import Verif.Props.NoPanic
import Verif.Props.Versions
/-!
# C140: payment requests
-/
namespace Verif.Props
open Verif Spec Transaction

/-- What `EncodeBIP276` writes for the main network. -/
theorem request_text (H : HashFns) (s : Bytes) : EncodeBIP276 H b!"bitcoin-script" 1 1 s = requestText H s := by
  have := C94_text H b!"bitcoin-script" 1 1 s (by decide) (by decide)
  have e1 : ((1 : UInt8).toNat : Int) = 1 := rfl
  rw [e1] at this
  rw [this]; rfl

theorem bip276Text_body (H : HashFns) (pfx : Bytes) (n v : UInt8) (d : Bytes) : bip276Text H pfx n v d = requestBody pfx n v d ++ requestSum H (requestBody pfx n v d) := by
  have : hexEncode [n, v] = hexEncode [n] ++ hexEncode [v] := hexEncode_append [n] [v]
  unfold bip276Text requestBody requestSum
  rw [this]
  simp only [List.append_assoc]

theorem colon_assoc (p a b c : Bytes) : p ++ b!":" ++ a ++ b ++ c = p ++ 58 :: (a ++ (b ++ c)) := by
  simp only [List.append_assoc]; rfl

theorem requestBody_main (s : Bytes) : requestBody b!"bitcoin-script" 1 1 s = b!"bitcoin-script:0101" ++ hexEncode s := rfl

theorem requestSum_length (H : HashFns) (b : Bytes) : (requestSum H b).length = 8 := by rw [requestSum, hexEncode_length, checksum_length]

theorem twoDigits_inj {a b : UInt8} (ha : a < 100) (hb : b < 100) (h : twoDigits a.toNat = twoDigits b.toNat) : a = b := by
  have e100 : (100 : UInt8).toNat = 100 := rfl
  rw [UInt8.lt_iff_toNat_lt, e100] at ha hb
  obtain ⟨-, -, a3⟩ := twoDigits_spec ⟨a.toNat, ha⟩
  obtain ⟨-, -, b3⟩ := twoDigits_spec ⟨b.toNat, hb⟩
  simp only at a3 b3
  exact UInt8.toNat_inj.mp (by rw [← a3, ← b3, h])

theorem twoDigits_no_colon {a : UInt8} (ha : a < 100) : (58 : UInt8) ∉ twoDigits a.toNat := by
  have e100 : (100 : UInt8).toNat = 100 := rfl
  rw [UInt8.lt_iff_toNat_lt, e100] at ha
  obtain ⟨-, a2, -⟩ := twoDigits_spec ⟨a.toNat, ha⟩
  intro h
  exact absurd (a2 _ h) (by decide)

theorem hexText_no_colon {t : Bytes} (h : HexText t) : (58 : UInt8) ∉ t := fun hc => absurd (h.2 _ hc) (by decide)

theorem lower_hexEncode (b : Bytes) : (hexEncode b).map lowerChar = hexEncode b := ((hexDecodeRes_text (hexEncode b) b).mp (hexDecodeRes_encode b)).2.symm

/-- C140 (the request): for every script that is not empty, `EncodeBIP276` for the main network writes a text that `ValidateAddress` calls valid and that `DecodeBIP276` reads as that script. -/
theorem C140_request (H : HashFns) (s : Bytes) (hs : s ≠ []) :
    EncodeBIP276 H b!"bitcoin-script" 1 1 s = requestText H s ∧ ValidateAddress H (requestText H s) = .ok true ∧
      DecodeBIP276 H (requestText H s) = .ok { pfx := b!"bitcoin-script", version := 1, network := 1, data := s } := by
  have hd := C28_roundtrip_on_domain H b!"bitcoin-script" 1 s (by omega) (by decide) (by decide) hs
  rw [request_text] at hd
  refine ⟨request_text H s, ?_, hd⟩
  have hp : bip276Prefix <+: requestText H s := by
    unfold requestText
    rw [List.append_assoc]
    exact List.IsPrefix.trans ⟨b!"0101", rfl⟩ (List.prefix_append _ _)
  rw [(C100_validate H _ hp).1]
  obtain ⟨v, n, -, -, hr⟩ := (C100_decode_iff H _ _).mp hd
  exact ⟨_, v, n, _, hr⟩

theorem outs_length (calls : List Call) : (calls.flatMap Call.outs).length ≤ calls.length := by
  induction calls with
  | nil => simp
  | cons c cs ih =>
    have : c.outs.length ≤ 1 := by cases c <;> simp [Call.outs]
    simp only [List.flatMap_cons, List.length_append, List.length_cons]; omega

/-- C140 (the payment): somebody who has the text decodes it and adds an output with what it says to a payment of unspent outputs of his keys. If a node accepts the signed transaction, then an
output with that amount and exactly the script that was asked for is unspent afterwards, under the hash of the bytes and its index among the outputs. -/
theorem C140_payment (H : HashFns) (verify : Bytes → Bytes → Bytes → Bool) (signers : List InternalSigner) (hg : ∀ is ∈ signers, GoodSigner verify is) (L : Ledger)
    (s : Bytes) (hs : s ≠ []) (hs64 : s.length < 2 ^ 64) (r : BIP276) (hr : DecodeBIP276 H (EncodeBIP276 H b!"bitcoin-script" 1 1 s) = .ok r) (sats : UInt64)
    (before after : List Call) (hb : ∀ c ∈ before ++ after, PaymentCall L (keyHashes H signers) c) (hlen : before.length + after.length + 1 < 2 ^ 31) :
    let calls := before ++ Call.addOutput { Satoshis := sats, LockingScript := r.data } :: after
    ∃ tx tx', applyCalls Transaction.New calls = .ok (tx, List.replicate calls.length true) ∧ signWithAll H signers tx = .ok tx' ∧
      ((∃ L', NodeAccepts H verify L tx'.ToBytes L') ↔
        Payable calls ∧ tx'.ToBytes.length ≤ maxTxBytes ∧ ∀ n < 2 ^ 32, L (H.sha256 (H.sha256 tx'.ToBytes) ++ leBytes 4 n) = none) ∧
      ∀ L', NodeAccepts H verify L tx'.ToBytes L' → L' (H.sha256 (H.sha256 tx'.ToBytes) ++ leBytes 4 (before.flatMap Call.outs).length) = some ⟨sats, s⟩ := by
  rw [request_text, (C140_request H s hs).2.2] at hr
  cases hr
  intro calls
  have hc : ∀ c ∈ calls, PaymentCall L (keyHashes H signers) c := by
    intro c hm
    rcases List.mem_append.mp hm with h | h
    · exact hb c (List.mem_append_left _ h)
    · rcases List.mem_cons.mp h with rfl | h
      · exact hs64
      · exact hb c (List.mem_append_right _ h)
  obtain ⟨tx, tx', h1, h2, h3, -, h5, h6⟩ := C115_payment H verify signers hg L calls hc (by simp only [calls, List.length_append, List.length_cons]; omega)
  refine ⟨tx, tx', h1, h2, h5, fun L' hL => ?_⟩
  rw [h6 L' hL]
  obtain ⟨g1, g2, t, g3, -, -⟩ := hL
  have hmx : maxTxBytes < 2 ^ 32 := by decide
  have hlo : tx'.Outputs.length < 2 ^ 32 := by
    have := outs_length calls
    have hl : calls.length = before.length + after.length + 1 := by simp only [calls, List.length_append, List.length_cons]; omega
    rw [h3]; omega
  have hget : tx'.Outputs[(before.flatMap Call.outs).length]? = some { Satoshis := sats, LockingScript := s } := by
    rw [h3]
    simp only [calls, List.flatMap_append, List.flatMap_cons, Call.outs]
    rw [List.getElem?_append_right (Nat.le_refl _), Nat.sub_self]
    rfl
  have hn := (List.getElem?_eq_some_iff.mp hget).1
  rw [after_output L _ tx' hlo g2 _ (by omega), hget]
  rfl

/-- C140 (a request for the script of an address): paying what the text says is paying the address. -/
theorem C140_same_as_address (H : HashFns) (a s : Bytes) (ha : NewP2PKHFromAddress a = .ok s) (r : BIP276) (hr : DecodeBIP276 H (EncodeBIP276 H b!"bitcoin-script" 1 1 s) = .ok r)
    (tx : Transaction) (sats : UInt64) : tx.PayTo a sats = .ok (tx.AddOutput { Satoshis := sats, LockingScript := r.data }) := by
  have hs : s ≠ [] := by
    rintro rfl
    rw [(C28_violation H b!"bitcoin-script" []).2.1] at hr
    cases hr
  rw [request_text, (C140_request H s hs).2.2] at hr
  cases hr
  unfold Transaction.PayTo Output.NewP2PKHFromAddress
  rw [ha]; rfl

theorem base58_no_colon {s b : Bytes} (h : IsBase58Text s b) : (58 : UInt8) ∉ s := by
  obtain ⟨k, t, c, -, -, rfl, -, ds, hd, rfl, -⟩ := h
  have hal : ∀ d : Fin 58, alphabet.getD d.val 0 ≠ 58 := by decide +kernel
  intro hm
  rcases List.mem_append.mp hm with hm | hm
  · exact absurd (List.eq_of_mem_replicate hm) (by decide)
  · obtain ⟨d, h1, h2⟩ := List.mem_map.mp hm
    exact hal ⟨d, hd d h1⟩ h2

/-- C140 (a), violated: `ValidateAddress` says that the text of a request is a valid address, but no transaction can pay to it: `PayTo` is an error with every one of these texts. -/
theorem C140_payTo_violated (H : HashFns) (s : Bytes) (hs : s ≠ []) :
    ValidateAddress H (requestText H s) = .ok true ∧ ∀ (tx : Transaction) (sats : UInt64), ∃ e, tx.PayTo (requestText H s) sats = .err e := by
  refine ⟨(C140_request H s hs).2.1, fun tx sats => ?_⟩
  rcases h : Address.NewFromString (requestText H s) with r | e | _
  · obtain ⟨v, hash, cs, -, -, -, ht, -⟩ := (C25_newFromString_iff _ _).mp h
    refine absurd ?_ (base58_no_colon ht)
    unfold requestText
    simp only [List.mem_append]
    exact .inl (.inl (by decide))
  · refine ⟨e, ?_⟩
    unfold Transaction.PayTo Output.NewP2PKHFromAddress NewP2PKHFromAddress
    rw [h]; rfl
  · exact absurd h (never_address _)

/-- C140 (a changed text): a text that has the checksum of the request and is read at all is read as the request, or what it says and what the request says are different and have the same
checksum. A text that has the rest of the request but another checksum is not read. -/
theorem C140_changed (H : HashFns) (s : Bytes) (rest cs : Bytes) (r : BIP276) (hr : DecodeBIP276 H (rest ++ cs) = .ok r) :
    (cs = requestSum H (b!"bitcoin-script:0101" ++ hexEncode s) → r = { pfx := b!"bitcoin-script", version := 1, network := 1, data := s } ∨
      ∃ network version : UInt8, r.network = network.toNat ∧ r.version = version.toNat ∧
        SumCollision H (requestBody r.pfx network version r.data) (requestBody b!"bitcoin-script" 1 1 s)) ∧
    (rest = b!"bitcoin-script:0101" ++ hexEncode s → cs.length = 8 → rest ++ cs = requestText H s) := by
  obtain ⟨version, network, hv, hn, h1, h2, h3, h4, h5, hx, h6, h7, ht⟩ := (C100_decode_iff H _ _).mp hr
  have hsum : hexEncode ((H.sha256 (H.sha256 (r.pfx ++ b!":" ++ hexEncode [network] ++ hexEncode [version] ++ hexEncode r.data))).take 4) = requestSum H (requestBody r.pfx network version r.data) := by
    have : hexEncode [network, version] = hexEncode [network] ++ hexEncode [version] := hexEncode_append [network] [version]
    unfold requestBody requestSum
    rw [this]
    simp only [List.append_assoc]
  rw [hsum] at ht
  constructor
  · rintro rfl
    obtain ⟨-, e2⟩ := List.append_inj' ht (by rw [requestSum_length, requestSum_length])
    by_cases hb : requestBody r.pfx network version r.data = requestBody b!"bitcoin-script" 1 1 s
    · left
      have hinj : bip276Text H r.pfx network version r.data = bip276Text H b!"bitcoin-script" 1 1 s := by
        rw [bip276Text_body, bip276Text_body, hb]
      obtain ⟨i1, i2, i3, i4⟩ := C94_injective H _ _ _ _ _ _ _ _ hinj
      subst i2 i3
      obtain ⟨p, v, n, d⟩ := r
      simp only at i1 i4 hv hn
      subst i1 i4 hv hn
      rfl
    · right
      refine ⟨network, version, hn, hv, hb, ?_⟩
      rw [requestBody_main]
      exact hexEncode_inj e2.symm
  · rintro rfl hl
    obtain ⟨e1, e2⟩ := List.append_inj' ht (by rw [requestSum_length, hl])
    have e3 : b!"bitcoin-script" ++ 58 :: (b!"0101" ++ hexEncode s) = r.pfx ++ 58 :: (twoDigits version.toNat ++ (twoDigits network.toNat ++ hx)) := by
      exact Eq.trans (show b!"bitcoin-script" ++ 58 :: (b!"0101" ++ hexEncode s) = _ from e1) (colon_assoc _ _ _ _)
    obtain ⟨e4, e5⟩ := last_colon _ _ _ _ (by simp only [List.mem_append, not_or]; exact ⟨by decide, no_colon_hex _⟩)
      (by simp only [List.mem_append, not_or]; exact ⟨twoDigits_no_colon h1, twoDigits_no_colon h2, hexText_no_colon h6⟩) e3
    have e6 : b!"01" ++ (b!"01" ++ hexEncode s) = twoDigits version.toNat ++ (twoDigits network.toNat ++ hx) := by
      simpa only [← List.append_assoc, show (b!"0101" : Bytes) = b!"01" ++ b!"01" from rfl] using e5
    obtain ⟨e7, e8⟩ := List.append_inj e6 rfl
    obtain ⟨e9, e10⟩ := List.append_inj e8 rfl
    have v1 : version = 1 := twoDigits_inj h1 (by decide) e7.symm
    have n1 : network = 1 := twoDigits_inj h2 (by decide) e9.symm
    have d1 : r.data = s := hexEncode_inj (by rw [h7, ← e10, lower_hexEncode])
    rw [e2, v1, n1, d1, ← e4, requestBody_main]
    rfl

/-- C140 (one wrong character): in the checksum, it is always noticed; before it, the text is refused, or read as the same request (a hex digit in capitals), or the checksums of two different
texts agree. -/
theorem C140_typo (H : HashFns) (s t : Bytes) (k : Nat) (ht : Replaced (requestText H s) t k) (r : BIP276) (hr : DecodeBIP276 H t = .ok r) :
    8 ≤ k ∧ (r = { pfx := b!"bitcoin-script", version := 1, network := 1, data := s } ∨
      ∃ network version : UInt8, r.network = network.toNat ∧ r.version = version.toNat ∧
        SumCollision H (requestBody r.pfx network version r.data) (requestBody b!"bitcoin-script" 1 1 s)) := by
  obtain ⟨pre, c, c', post, h1, rfl, hne, rfl⟩ := ht
  have hl := requestSum_length H (b!"bitcoin-script:0101" ++ hexEncode s)
  have hk : 8 ≤ post.length := by
    by_contra hlt
    -- the change is in the checksum
    have hcut : ∃ q, requestSum H (b!"bitcoin-script:0101" ++ hexEncode s) = q ++ c :: post ∧ pre = b!"bitcoin-script:0101" ++ hexEncode s ++ q := by
      rcases List.append_eq_append_iff.mp (show b!"bitcoin-script:0101" ++ hexEncode s ++ requestSum H (b!"bitcoin-script:0101" ++ hexEncode s) = pre ++ c :: post from h1) with
        ⟨q, g1, g2⟩ | ⟨q, g1, g2⟩
      · exact ⟨q, g2, g1⟩
      · have := congrArg List.length g2
        simp only [List.length_append, List.length_cons, hl] at this
        have hq : q = [] := List.length_eq_zero_iff.mp (by omega)
        subst hq
        exact ⟨[], by simpa using g2.symm, by simpa using g1.symm⟩
    obtain ⟨q, g1, rfl⟩ := hcut
    have := (C140_changed H s (b!"bitcoin-script:0101" ++ hexEncode s) (q ++ c' :: post) r (by simpa only [List.append_assoc] using hr)).2 rfl
      (by rw [g1] at hl; simpa using hl)
    rw [requestText, g1] at this
    have := List.append_cancel_left (List.append_cancel_left this)
    simp only [List.cons.injEq, and_true] at this
    exact hne this.symm
  refine ⟨hk, ?_⟩
  have hcut : ∃ q, post = q ++ requestSum H (b!"bitcoin-script:0101" ++ hexEncode s) := by
    refine ⟨post.take (post.length - 8), ?_⟩
    have : post.drop (post.length - 8) = requestSum H (b!"bitcoin-script:0101" ++ hexEncode s) := by
      have h2 : (pre ++ c :: post).drop ((pre ++ c :: post).length - 8) = requestSum H (b!"bitcoin-script:0101" ++ hexEncode s) := by
        rw [← h1]
        unfold requestText
        rw [List.drop_left' (by simp only [List.length_append, hl]; omega)]
      rw [← h2, show (pre ++ c :: post).length - 8 = (pre ++ [c]).length + (post.length - 8) by simp; omega, show pre ++ c :: post = (pre ++ [c]) ++ post by simp, List.drop_append,
        List.drop_of_length_le (l := pre ++ [c]) (by omega), List.nil_append, Nat.add_sub_cancel_left]
    rw [← this, List.take_append_drop]
  obtain ⟨q, rfl⟩ := hcut
  exact (C140_changed H s (pre ++ c' :: q) _ r (by simpa only [List.append_assoc, List.cons_append] using hr)).1 rfl

/-- C140 (b), violated: one wrong character after the colon that is no hex digit and no colon makes `DecodeBIP276`, and `ValidateAddress`, panic instead of refusing the text. -/
theorem C140_typo_violated (H : HashFns) (s : Bytes) (pre : Bytes) (c c' : UInt8) (post : Bytes) (h : requestText H s = b!"bitcoin-script:" ++ pre ++ c :: post)
    (hc : ¬ IsHexChar c') (hc' : c' ≠ 58) :
    DecodeBIP276 H (b!"bitcoin-script:" ++ pre ++ c' :: post) = .panic ∧ ValidateAddress H (b!"bitcoin-script:" ++ pre ++ c' :: post) = .panic := by
  have hpanic : ¬ ∃ pfx d1 d2 hx cs, IsBip276Text (b!"bitcoin-script:" ++ pre ++ c' :: post) pfx d1 d2 hx cs := by
    rintro ⟨pfx, d1, d2, hx, cs, ht, -, -, -, -, -, -, h7, h8⟩
    have hno : (58 : UInt8) ∉ pre ∧ (58 : UInt8) ∉ post := by
      have e : b!"0101" ++ (hexEncode s ++ requestSum H (b!"bitcoin-script:0101" ++ hexEncode s)) = pre ++ c :: post := by
        apply List.append_cancel_left (as := (b!"bitcoin-script:" : Bytes))
        rw [← List.append_assoc, ← List.append_assoc, ← List.append_assoc, ← h]; rfl
      have hn : (58 : UInt8) ∉ pre ++ c :: post := by
        rw [← e]
        simp only [List.mem_append, not_or]
        exact ⟨by decide, no_colon_hex _, no_colon_hex _⟩
      simp only [List.mem_append, List.mem_cons, not_or] at hn
      exact ⟨hn.1, hn.2.2⟩
    have e : b!"bitcoin-script" ++ 58 :: (pre ++ c' :: post) = pfx ++ 58 :: (d1 ++ d2 ++ (hx ++ cs)) := by
      have e1 : b!"bitcoin-script:" ++ pre ++ c' :: post = b!"bitcoin-script" ++ 58 :: (pre ++ c' :: post) := by rw [List.append_assoc]; rfl
      rw [← e1, ht]
      simp only [List.append_assoc]; rfl
    obtain ⟨-, e2⟩ := last_colon _ _ _ _ (by simp only [List.mem_append, List.mem_cons, not_or]; exact ⟨hno.1, fun h => hc' h.symm, hno.2⟩) (by
      intro hm
      rcases List.mem_append.mp hm with hm | hm
      · exact absurd (h7 _ hm) (by decide)
      · exact absurd (h8 _ hm) (by decide)) e
    have hm : c' ∈ d1 ++ d2 ++ (hx ++ cs) := by rw [← e2]; simp
    rcases List.mem_append.mp hm with hm | hm
    · exact hc (.inl (h7 _ hm))
    · exact hc (h8 _ hm)
  refine ⟨(C29_panic_iff H _).mpr hpanic, ?_⟩
  rw [(C100_validate H _ (by rw [List.append_assoc]; exact List.prefix_append _ _)).2.1]
  exact hpanic

/-- C140 (c), violated: a request for the test network is refused, or, if two different texts happen to have one checksum, read as one for the main network; it is never read as what it is. -/
theorem C140_testnet_violated (H : HashFns) (s : Bytes) (r : BIP276) (hr : DecodeBIP276 H (EncodeBIP276 H b!"bitcoin-script" 2 1 s) = .ok r) :
    r = { pfx := b!"bitcoin-script", version := 2, network := 1, data := s } ∧
      SumCollision H (requestBody b!"bitcoin-script" 1 2 s) (requestBody b!"bitcoin-script" 2 1 s) := by
  have htext := C94_text H b!"bitcoin-script" 2 1 s (by decide) (by decide)
  rw [show ((1 : UInt8).toNat : Int) = 1 from rfl, show ((2 : UInt8).toNat : Int) = 2 from rfl] at htext
  rw [htext, bip276Text_body] at hr
  obtain ⟨version, network, hv, hn, h1, h2, h3, h4, h5, hx, h6, h7, ht⟩ := (C100_decode_iff H _ _).mp hr
  obtain ⟨e1, e2⟩ := List.append_inj' ht (by rw [requestSum_length, hexEncode_length, checksum_length])
  have e3 : b!"bitcoin-script" ++ 58 :: (b!"0201" ++ hexEncode s) = r.pfx ++ 58 :: (twoDigits version.toNat ++ (twoDigits network.toNat ++ hx)) :=
    Eq.trans (show b!"bitcoin-script" ++ 58 :: (b!"0201" ++ hexEncode s) = _ from e1) (colon_assoc _ _ _ _)
  obtain ⟨e4, e5⟩ := last_colon _ _ _ _ (by simp only [List.mem_append, not_or]; exact ⟨by decide, no_colon_hex _⟩)
    (by simp only [List.mem_append, not_or]; exact ⟨twoDigits_no_colon h1, twoDigits_no_colon h2, hexText_no_colon h6⟩) e3
  have e6 : b!"02" ++ (b!"01" ++ hexEncode s) = twoDigits version.toNat ++ (twoDigits network.toNat ++ hx) := by
    simpa only [← List.append_assoc, show (b!"0201" : Bytes) = b!"02" ++ b!"01" from rfl] using e5
  obtain ⟨e7, e8⟩ := List.append_inj e6 rfl
  obtain ⟨e9, e10⟩ := List.append_inj e8 rfl
  have v1 : version = 2 := twoDigits_inj h1 (by decide) e7.symm
  have n1 : network = 1 := twoDigits_inj h2 (by decide) e9.symm
  have d1 : r.data = s := hexEncode_inj (by rw [h7, ← e10, lower_hexEncode])
  subst v1 n1
  obtain ⟨p, v, n, d⟩ := r
  simp only at e4 d1 hv hn
  subst e4 d1 hv hn
  refine ⟨rfl, ?_, ?_⟩
  · unfold requestBody
    intro h
    have := List.append_cancel_left (List.append_cancel_right h)
    exact absurd this (by decide)
  · have : hexEncode [(1 : UInt8), 2] = hexEncode [1] ++ hexEncode [2] := hexEncode_append [1] [2]
    have := hexEncode_inj e2
    rw [this]
    unfold requestBody
    simp only [List.append_assoc]
    rfl

/-- The call that spends the coin of the example. -/
def exRequestSpend : Call := .fromUtxo exCoin.txid exCoin.vout exCoin.scriptHex exCoin.sats

/-- a request, paid by somebody with one coin -/
example : ∃ r, DecodeBIP276 toyH (EncodeBIP276 toyH b!"bitcoin-script" 1 1 [0x51]) = .ok r ∧ r.data = [0x51] ∧
    Payable ([exRequestSpend] ++ Call.addOutput { Satoshis := 80, LockingScript := r.data } :: []) ∧
    ∀ c ∈ [exRequestSpend] ++ [], PaymentCall exLedger [toyH.ripemd160 (toyH.sha256 toySigner.pubKey)] c := by
  refine ⟨⟨b!"bitcoin-script", 1, 1, [0x51]⟩, by decide +kernel, rfl, ⟨⟨_, List.mem_cons_self, by simp [exRequestSpend, Call.spent]⟩,
    ⟨_, List.mem_cons_of_mem _ List.mem_cons_self, by simp [Call.outs]⟩, by decide +kernel, by decide, by decide⟩, ?_⟩
  intro c hc
  rw [List.append_nil, List.mem_singleton] at hc
  subst hc
  exact ⟨by unfold IsTxId; decide +kernel, _, List.mem_singleton.mpr rfl, (isHexString_iff _).mpr (isHex_encode _), hexDecodeIgnore_encode _, by simp [exLedger, exCoin, WalletCoin.key]⟩

/-- the same request with a digit in capitals is read; another letter in that place, or `o` for `0`, is not -/
example : DecodeBIP276 toyH (requestText toyH [0xab]) = .ok ⟨b!"bitcoin-script", 1, 1, [0xab]⟩ ∧ (requestText toyH [0xab]).take 21 = b!"bitcoin-script:0101ab" ∧
    DecodeBIP276 toyH (b!"bitcoin-script:0101aB" ++ (requestText toyH [0xab]).drop 21) = .ok ⟨b!"bitcoin-script", 1, 1, [0xab]⟩ ∧
    DecodeBIP276 toyH (b!"bitcoin-script:o101ab" ++ (requestText toyH [0xab]).drop 21) = .panic ∧
    (DecodeBIP276 toyH ((requestText toyH [0xab]).take 28 ++ b!"f")).isOk = false := by decide +kernel

/-- a body of a request with the checksum of another one, under a hash that allows it -/
example : SumCollision toyH (requestBody b!"bitcoin-script" 1 1 [0xab]) (requestBody b!"bitcoin-script" 1 1 [0xab, 0xcd]) := by unfold SumCollision; decide +kernel

end Verif.Props
