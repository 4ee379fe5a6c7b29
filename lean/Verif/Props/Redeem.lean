import Verif.Props.Utils
import Verif.Props.Script
/-!
# Properties C30 - C32: multisig redeem scripts
-/
namespace Verif.Props
open Verif Verif.Spec Verif.Op

/-! ## C30 -/

/-- C30 (a): redeem script, hash and address do not depend on the order of the keys. -/
theorem C30_order_independent (H : HashFns) (a b : RedeemScript) (hm : a.SignaturesRequired = b.SignaturesRequired)
    (hp : a.PublicKeys.Perm b.PublicKeys) :
    (GetRedeemScript a).1 = (GetRedeemScript b).1 ∧ GetRedeemScriptHash H a = GetRedeemScriptHash H b ∧
    RedeemScript.GetAddress H a = RedeemScript.GetAddress H b ∧ getScriptPubKey H a = getScriptPubKey H b := by
  have h : (GetRedeemScript a).1 = (GetRedeemScript b).1 := by
    simp only [GetRedeemScript]
    rw [hm, (C05_sort_canonical _ _ hp).1]
  refine ⟨h, ?_, ?_, ?_⟩
  · simp [GetRedeemScriptHash, h]
  · simp [RedeemScript.GetAddress, h]
  · simp [getScriptPubKey, GetRedeemScriptHash, h]

/-- C30 (b): `GetRedeemScript` sorts the receiver's keys in place; calling it again, any number of times, gives the same script and
leaves the same receiver. -/
theorem C30_repeatable (rs : RedeemScript) :
    GetRedeemScript (GetRedeemScript rs).2 = GetRedeemScript rs ∧ (GetRedeemScript rs).2.PublicKeys.Perm rs.PublicKeys ∧
    (GetRedeemScript rs).2.SignaturesRequired = rs.SignaturesRequired := by
  have hs : SortByteArrays (SortByteArrays rs.PublicKeys) = SortByteArrays rs.PublicKeys :=
    (C05_sort_canonical _ _ (C05_sort_perm rs.PublicKeys)).1
  refine ⟨?_, C05_sort_perm _, rfl⟩
  simp only [GetRedeemScript, hs]

/-- C30 (c): the same, for the public API: two redeem scripts made by adding the same keys in different orders agree, even when
`GetRedeemScript` is called (and so re-orders the keys) at any point in between. `calls` is a list of steps: add a key, or read the script. -/
theorem C30_histories (H : HashFns) (m : Int) (calls1 calls2 : List (Option Bytes))
    (hp : (calls1.filterMap id).Perm (calls2.filterMap id)) :
    let step := fun (rs : RedeemScript) (c : Option Bytes) => match c with
      | some k => { rs with PublicKeys := rs.PublicKeys ++ [k] }
      | none => (GetRedeemScript rs).2
    let fresh : RedeemScript := { SignaturesRequired := m, PublicKeys := [], Signatures := [] }
    (GetRedeemScript (calls1.foldl step fresh)).1 = (GetRedeemScript (calls2.foldl step fresh)).1 ∧
    RedeemScript.GetAddress H (calls1.foldl step fresh) = RedeemScript.GetAddress H (calls2.foldl step fresh) := by
  intro step fresh
  have inv : ∀ (calls : List (Option Bytes)) (rs : RedeemScript), (calls.foldl step rs).SignaturesRequired = rs.SignaturesRequired ∧
      (calls.foldl step rs).PublicKeys.Perm (rs.PublicKeys ++ calls.filterMap id) := by
    intro calls
    induction calls with
    | nil => intro rs; simp
    | cons c cs ih =>
      intro rs
      obtain ⟨h1, h2⟩ := ih (step rs c)
      rw [List.foldl_cons]
      cases c with
      | none => exact ⟨h1, h2.trans ((C30_repeatable rs).2.1.append_right _)⟩
      | some k => exact ⟨h1, by simpa [step] using h2⟩
  obtain ⟨a1, a2⟩ := inv calls1 fresh
  obtain ⟨b1, b2⟩ := inv calls2 fresh
  have := C30_order_independent H _ _ (a1.trans b1.symm) (a2.trans ((List.Perm.append_left _ hp).trans b2.symm))
  exact ⟨this.1, this.2.2.1⟩

example : (GetRedeemScript ⟨2, [[3, 3], [2, 9]], []⟩).1 = (GetRedeemScript ⟨2, [[2, 9], [3, 3]], []⟩).1 ∧
    (GetRedeemScript ⟨2, [[3, 3], [2, 9]], []⟩).1 = [0x52, 2, 2, 9, 2, 3, 3, 0x52, 0xae] := by decide +kernel

/-! ## C31 -/

/-- C31 (a): `NewRedeemScript(m)` succeeds exactly for 2 ≤ m ≤ 16 and starts without keys. -/
theorem C31_new (m : Int) :
    ((NewRedeemScript m).isOk ↔ 2 ≤ m ∧ m ≤ 16) ∧ ((NewRedeemScript m).isErr ↔ ¬ (2 ≤ m ∧ m ≤ 16)) ∧
    (∀ rs, NewRedeemScript m = .ok rs → rs.SignaturesRequired = m ∧ rs.PublicKeys = [] ∧ rs.Signatures = []) := by
  unfold NewRedeemScript
  split_ifs <;> simp <;> omega

theorem redeemKeys_tokens (ks : List Bytes) : redeemKeys ks = bytesOf (ks.map Token.direct) := by
  induction ks with
  | nil => rfl
  | cons k ks ih => simp [redeemKeys, ih, bytesOf, Token.bytes, Token.header, Token.data]

/-- C31 (b): the redeem script of `m` and 1..16 keys of length 1..75 decodes to: the opcode OP_m, the sorted keys, OP_n, OP_CHECKMULTISIG;
and `IsMultisigOut` holds of it. -/
theorem C31_structure (rs : RedeemScript) (hm : 1 ≤ rs.SignaturesRequired ∧ rs.SignaturesRequired ≤ 16)
    (hn : 1 ≤ rs.PublicKeys.length ∧ rs.PublicKeys.length ≤ 16) (hk : ∀ k ∈ rs.PublicKeys, 1 ≤ k.length ∧ k.length ≤ 75) :
    ∃ keys : List Bytes, keys.Perm rs.PublicKeys ∧ keys.Pairwise lexLe ∧
      DecodeParts (GetRedeemScript rs).1 = .ok ([UInt8.ofNat (0x50 + rs.SignaturesRequired.toNat)] ::
        (keys ++ [[UInt8.ofNat (0x50 + rs.PublicKeys.length)], [0xae]])) ∧
      IsMultisigOut (GetRedeemScript rs).1 = .ok true := by
  set keys := SortByteArrays rs.PublicKeys with hkeys
  have hperm : keys.Perm rs.PublicKeys := C05_sort_perm _
  obtain ⟨m, hm'⟩ : ∃ m : Nat, rs.SignaturesRequired = m := ⟨rs.SignaturesRequired.toNat, by omega⟩
  have hbm : OpBASE + byteOfInt rs.SignaturesRequired = UInt8.ofNat (0x50 + m) := by
    rw [hm']
    have : byteOfInt (m : Int) = UInt8.ofNat m := by
      unfold byteOfInt
      congr 1
      omega
    rw [this]
    apply UInt8.toNat_inj.mp
    simp [UInt8.toNat_add, OpBASE]
  have hbn : OpBASE + byteOfInt (keys.length : Int) = UInt8.ofNat (0x50 + rs.PublicKeys.length) := by
    rw [hperm.length_eq]
    have : byteOfInt (rs.PublicKeys.length : Int) = UInt8.ofNat rs.PublicKeys.length := by
      unfold byteOfInt
      congr 1
      omega
    rw [this]
    apply UInt8.toNat_inj.mp
    simp [UInt8.toNat_add, OpBASE]
  set bm := UInt8.ofNat (0x50 + m) with hbm'
  set bn := UInt8.ofNat (0x50 + rs.PublicKeys.length) with hbn'
  have hscript : (GetRedeemScript rs).1 = bytesOf (.op bm :: (keys.map Token.direct ++ [.op bn, .op 0xae])) := by
    simp only [GetRedeemScript, ← hkeys, hbm, hbn, redeemKeys_tokens]
    simp [bytesOf, Token.bytes, Token.header, Token.data, OpCHECKMULTISIG]
  have vm : bm.toNat = 0x50 + m := by rw [hbm', UInt8.toNat_ofNat', Nat.mod_eq_of_lt (by omega)]
  have vn : bn.toNat = 0x50 + rs.PublicKeys.length := by rw [hbn', UInt8.toNat_ofNat', Nat.mod_eq_of_lt (by omega)]
  have hdec : DecodeParts (GetRedeemScript rs).1 = .ok ([bm] :: (keys ++ [[bn], [0xae]])) := by
    rw [hscript, decodeParts_tokens]
    · have : keys.map (Token.payload ∘ Token.direct) = keys := by
        conv_rhs => rw [← List.map_id keys]
        rfl
      simp [payloads, Token.payload, this]
    · intro t ht
      simp only [List.mem_cons, List.mem_append, List.mem_map, List.not_mem_nil, or_false] at ht
      rcases ht with rfl | ⟨k, hk', rfl⟩ | rfl | rfl
      · right; rw [UInt8.lt_iff_toNat_lt, vm]; simp; omega
      · exact hk k (hperm.mem_iff.mp hk')
      · right; rw [UInt8.lt_iff_toNat_lt, vn]; simp; omega
      · right; decide
    · intro t ht
      simp only [List.mem_cons, List.mem_append, List.mem_map, List.not_mem_nil, or_false] at ht
      rcases ht with rfl | ⟨k, hk', rfl⟩ | rfl | rfl <;> trivial
  refine ⟨keys, hperm, C05_sort_sorted _, ?_, ?_⟩
  · rw [hdec, hm']; rfl
  · rw [isMultisigOut_parts _ _ hdec]
    refine ⟨bm, [], keys, bn, [], [], rfl, ?_, ?_, ?_⟩
    · right; rw [UInt8.le_iff_toNat_le, UInt8.le_iff_toNat_le, vm]; simp; omega
    · right; rw [UInt8.le_iff_toNat_le, UInt8.le_iff_toNat_le, vn]; simp; omega
    · intro p hp e
      have := (hk p (hperm.mem_iff.mp hp)).1
      rw [e] at this; simp at this

example : ∃ rs : RedeemScript, (1 ≤ rs.SignaturesRequired ∧ rs.SignaturesRequired ≤ 16) ∧ (1 ≤ rs.PublicKeys.length ∧ rs.PublicKeys.length ≤ 16) ∧
    (∀ k ∈ rs.PublicKeys, 1 ≤ k.length ∧ k.length ≤ 75) ∧ DecodeParts (GetRedeemScript rs).1 = .ok [[0x52], [2, 9], [3, 3], [0x52], [0xae]] :=
  ⟨⟨2, [[3, 3], [2, 9]], []⟩, by simp, by simp, by simp, by decide +kernel⟩

/-- C31 boundary: without keys the script ends `50 ae` (OP_RESERVED, not OP_0), and is not recognised; a key of 76 bytes or more makes its
length byte a PUSHDATA opcode, and the script does not decode to its keys. -/
theorem C31_boundary :
    IsMultisigOut (GetRedeemScript ⟨2, [], []⟩).1 = .ok false ∧
    DecodeParts (GetRedeemScript ⟨2, [List.replicate 76 1], []⟩).1 ≠ .ok [[0x52], List.replicate 76 1, [0x51], [0xae]] := by decide +kernel

/-- C31 (c): `AddPublicKey` with a two-level path appends the derived key; otherwise it fails (and the receiver is unchanged). -/
theorem C31_addPublicKey (hd : HDKeychain) (rs : RedeemScript) (xpub : Bytes) (path : List UInt32) :
    (path.length ≠ 2 → (AddPublicKey hd rs xpub path).isErr) ∧
    (∀ i j rs', AddPublicKey hd rs xpub [i, j] = .ok rs' ↔
      ∃ k1 k2 k3 pk, hd.newKeyFromString xpub = .ok k1 ∧ hd.child k1 i = .ok k2 ∧ hd.child k2 j = .ok k3 ∧ hd.ecPubKey k3 = .ok pk ∧
        rs' = { rs with PublicKeys := rs.PublicKeys ++ [pk] }) := by
  constructor
  · intro h; simp [AddPublicKey, h]
  · intro i j rs'
    simp only [AddPublicKey, List.length_cons, List.length_nil, ne_eq, not_true_eq_false, if_false, HDKeychain.derive,
      List.getD_cons_zero, List.getD_cons_succ, Res.bind_eq_ok]
    constructor
    · rintro ⟨pk, ⟨k1, h1, k2, h2, k3, h3, h4⟩, h5⟩
      exact ⟨k1, k2, k3, pk, h1, h2, h3, h4, by simpa [eq_comm] using h5⟩
    · rintro ⟨k1, k2, k3, pk, h1, h2, h3, h4, h5⟩
      exact ⟨pk, ⟨k1, h1, k2, h2, k3, h3, h4⟩, by rw [h5]; rfl⟩

/-! ## C32 -/

/-- Specification: an Electrum key is 0xff, a 78-byte extended key and two 16-bit little-endian path components. -/
def electrumEncoding (xpub78 : Bytes) (i j : UInt16) : Bytes := 0xff :: (xpub78 ++ putUint16 i ++ putUint16 j)

/-- Specification: the derived public key of an Electrum key. -/
def DerivesTo (H : HashFns) (hd : HDKeychain) (p : Bytes) (pk : Bytes) : Prop :=
  ∃ (x : Bytes) (i j : UInt16) (k1 k2 k3 : hd.Key), x.length = 78 ∧ p = electrumEncoding x i j ∧
    hd.newKeyFromString (base58Encode (x ++ (Sha256d H x).take 4)) = .ok k1 ∧ hd.child k1 i.toUInt32 = .ok k2 ∧
    hd.child k2 j.toUInt32 = .ok k3 ∧ hd.ecPubKey k3 = .ok pk

theorem derivationPath16_ok {b : Bytes} {s : List UInt16} (h : derivationPath16 b = .ok s) : b = s.flatMap putUint16 := by
  induction b using derivationPath16.induct generalizing s with
  | case1 => simp [derivationPath16] at h; subst h; rfl
  | case2 c => simp [derivationPath16] at h
  | case3 a b rest ih =>
    simp only [derivationPath16] at h
    obtain ⟨ns, h1, h2⟩ := Res.bind_eq_ok.mp h
    simp at h2; subst h2
    rw [List.flatMap_cons, ← ih h1, putUint16_ofNat_leNat rfl]
    rfl

theorem derivationPath16_two (i j : UInt16) : derivationPath16 (putUint16 i ++ putUint16 j) = .ok [i, j] := by
  have e : ∀ v : UInt16, putUint16 v = [UInt8.ofNat (v.toNat % 256), UInt8.ofNat (v.toNat / 256 % 256)] := fun v => rfl
  have g : ∀ v : UInt16, UInt16.ofNat (leNat [UInt8.ofNat (v.toNat % 256), UInt8.ofNat (v.toNat / 256 % 256)]) = v := by
    intro v; rw [← e v, leNat_putUint16]; simp
  rw [e i, e j]
  simp only [List.cons_append, List.nil_append, derivationPath16, Res.ok_bind, Res.pure_eq, g]

theorem electrumKey_ok_iff (H : HashFns) (hd : HDKeychain) (p pk : Bytes) : electrumKey H hd p = .ok pk ↔ DerivesTo H hd p pk := by
  unfold electrumKey DerivesTo
  constructor
  · intro h
    obtain ⟨p0, h0, h⟩ := Res.bind_eq_ok.mp h
    cases p with
    | nil => simp [index] at h0
    | cons c r =>
      simp at h0; subst h0
      split at h
      · simp at h
      · rename_i hc
        simp only [ne_eq, not_not] at hc; subst hc
        simp only [List.drop_succ_cons, List.drop_zero] at h
        split at h
        · simp at h
        · rename_i hl
          obtain ⟨s, hs, h⟩ := Res.bind_eq_ok.mp h
          split at h
          · simp at h
          · rename_i hs2
            obtain ⟨i, j, rfl⟩ : ∃ i j, s = [i, j] := by
              rcases s with _ | ⟨i, _ | ⟨j, _ | ⟨k, s⟩⟩⟩ <;> simp at hs2; exact ⟨i, j, rfl⟩
            have := derivationPath16_ok hs
            simp only [HDKeychain.derive, Res.bind_eq_ok, List.getD_cons_zero, List.getD_cons_succ] at h
            obtain ⟨k1, h1, k2, h2, k3, h3, h4⟩ := h
            refine ⟨r.take 78, i, j, k1, k2, k3, by simp; omega, ?_, h1, h2, h3, h4⟩
            unfold electrumEncoding
            rw [List.append_assoc, ← show r.drop 78 = putUint16 i ++ putUint16 j by rw [this]; simp, List.take_append_drop]
  · rintro ⟨x, i, j, k1, k2, k3, hx, rfl, h1, h2, h3, h4⟩
    simp only [electrumEncoding, index_cons_zero, Res.ok_bind, ne_eq, not_true_eq_false, if_false, List.drop_succ_cons, List.drop_zero]
    have t78 : (x ++ putUint16 i ++ putUint16 j).take 78 = x := by
      rw [List.append_assoc, List.take_append_of_le_length (by omega), List.take_of_length_le (by omega)]
    have d78 : (x ++ putUint16 i ++ putUint16 j).drop 78 = putUint16 i ++ putUint16 j := by
      rw [List.append_assoc, List.drop_append_of_le_length (by omega), List.drop_of_length_le (by omega), List.nil_append]
    rw [if_neg (by simp [hx]), t78, d78, derivationPath16_two]
    simp only [Res.ok_bind, List.length_cons, List.length_nil, not_true_eq_false, if_false, HDKeychain.derive, Base58EncodeMissingChecksum, checksum]
    simp [h1, h2, h3, h4]

theorem electrumKeys_ok_iff (H : HashFns) (hd : HDKeychain) (ps ks : List Bytes) :
    electrumKeys H hd ps = .ok ks ↔ List.Forall₂ (DerivesTo H hd) ps ks := by
  induction ps generalizing ks with
  | nil => simp [electrumKeys, eq_comm]
  | cons p ps ih =>
    simp only [electrumKeys, Res.bind_eq_ok, electrumKey_ok_iff, ih, Res.pure_eq, Res.ok.injEq]
    constructor
    · rintro ⟨k, hk, ks', hks, rfl⟩; exact List.Forall₂.cons hk hks
    · intro h
      cases h with
      | cons h1 h2 => exact ⟨_, h1, _, h2, rfl⟩

/-- C32 (a), success exactly: the hex script decodes to a first part whose first byte is 0x50+m with 2 ≤ m ≤ 15, Electrum keys, a part whose first byte is
0x50+n for the number n of keys, and a part beginning with OP_CHECKMULTISIG; the result is then m and the derived public keys
in script order. (The code looks only at the first byte of the first and the last two parts.) -/
theorem C32_electrum_iff (H : HashFns) (hd : HDKeychain) (script : Bytes) (rs : RedeemScript) :
    NewRedeemScriptFromElectrum H hd script = .ok rs ↔
      ∃ (m n : Nat) (a y z : Bytes) (encs keys : List Bytes), 2 ≤ m ∧ m ≤ 15 ∧ n = keys.length ∧ n < 256 ∧
        DecodeStringParts script = .ok ((UInt8.ofNat (0x50 + m) :: a) :: (encs ++ [UInt8.ofNat (0x50 + n) :: y, 0xae :: z])) ∧
        List.Forall₂ (DerivesTo H hd) encs keys ∧
        rs = { SignaturesRequired := m, PublicKeys := keys, Signatures := [] } := by
  have hsub : ∀ b : UInt8, b = UInt8.ofNat (0x50 + (b - OpBASE).toNat) := by
    apply forall_uint8; decide +kernel
  have hsub2 : ∀ n : Nat, n < 256 → (UInt8.ofNat (0x50 + n) - OpBASE).toNat = n := by
    intro n hn
    have : ∀ k : Fin 256, (UInt8.ofNat (0x50 + k.val) - OpBASE).toNat = k.val := by decide +kernel
    exact this ⟨n, hn⟩
  unfold NewRedeemScriptFromElectrum
  constructor
  · intro h
    obtain ⟨parts, hp, h⟩ := Res.bind_eq_ok.mp h
    split at h
    · simp at h
    · obtain ⟨p0, h0, h⟩ := Res.bind_eq_ok.mp h
      simp only at h
      split at h
      · simp at h
      · rename_i hm2
        split at h
        · simp at h
        · rename_i hm15
          split at h
          · simp at h
          · obtain ⟨pn, hn, h⟩ := Res.bind_eq_ok.mp h
            obtain ⟨pl, hl, h⟩ := Res.bind_eq_ok.mp h
            split at h
            · simp at h
            · rename_i hae
              split at h
              · simp at h
              · rename_i h3
                obtain ⟨a, mid, y, z, rfl⟩ := split_three parts h3
                rw [take_drop_mid] at h
                rw [(getD_last2 a mid y z []).1] at hn
                rw [(getD_last2 a mid y z []).2] at hl
                obtain ⟨keys, hk, h⟩ := Res.bind_eq_ok.mp h
                split at h
                · simp at h
                · rename_i hc
                  simp only [ne_eq, not_not] at hc hae
                  simp only [Res.pure_eq, Res.ok.injEq] at h
                  have hfin := h.symm
                  have cons : ∀ {l : Bytes} {c : UInt8}, index l 0 = .ok c → ∃ r, l = c :: r := by
                    intro l c h; cases l with
                    | nil => simp [index] at h
                    | cons x xs => simp at h; exact ⟨xs, by rw [h]⟩
                  obtain ⟨a', rfl⟩ := cons h0
                  obtain ⟨y', rfl⟩ := cons hn
                  obtain ⟨z', rfl⟩ := cons hl
                  refine ⟨(p0 - OpBASE).toNat, (pn - OpBASE).toNat, a', y', z', mid, keys, by omega, by omega, hc.symm, UInt8.toNat_lt _, ?_,
                    (electrumKeys_ok_iff H hd mid keys).mp hk, hfin⟩
                  rw [← hsub p0, ← hsub pn, hp, hae]
                  rfl
  · rintro ⟨m, n, a, y, z, encs, keys, hm2, hm15, hnk, hn, hp, hf, rfl⟩
    rw [hp]
    simp only [Res.ok_bind, List.getD_cons_zero, index_cons_zero, hsub2 m (by omega)]
    rw [if_neg (by simp), if_neg (by omega), if_neg (by omega), if_neg (by simp), (getD_last2 _ encs _ _ []).1, (getD_last2 _ encs _ _ []).2]
    simp only [Res.ok_bind, index_cons_zero, hsub2 n hn]
    rw [if_neg (by simp [OpCHECKMULTISIG]), if_neg (by simp), take_drop_mid, (electrumKeys_ok_iff H hd encs keys).mpr hf]
    simp [hnk]

theorem derivationPath16_even (b : Bytes) (h : b.length % 2 = 0) : ∃ s, derivationPath16 b = .ok s := by
  induction b using derivationPath16.induct with
  | case1 => exact ⟨[], rfl⟩
  | case2 c => simp at h
  | case3 a b rest ih =>
    obtain ⟨s, hs⟩ := ih (by simp at h; omega)
    exact ⟨UInt16.ofNat (leNat [a, b]) :: s, by simp only [derivationPath16, hs, Res.ok_bind, Res.pure_eq]⟩

/-- Specification: a key part on which the code runs off the end: nothing at all, or the 0xff marker followed by fewer than 78 bytes or by an odd number of path bytes. -/
def BrokenKey (p : Bytes) : Prop := p = [] ∨ ∃ r : Bytes, p = 0xff :: r ∧ (r.length < 78 ∨ r.length % 2 = 1)

theorem derivationPath16_odd (b : Bytes) (h : b.length % 2 = 1) : derivationPath16 b = .panic := by
  induction b using derivationPath16.induct with
  | case1 => simp at h
  | case2 c => rfl
  | case3 a b rest ih =>
    simp only [derivationPath16, ih (by simp at h; omega), Res.panic_bind]

theorem electrumKey_panic_iff (H : HashFns) (hd : HDKeychain)
    (hd1 : ∀ s, hd.newKeyFromString s ≠ .panic) (hd2 : ∀ k i, hd.child k i ≠ .panic) (hd3 : ∀ k, hd.ecPubKey k ≠ .panic) (p : Bytes) :
    electrumKey H hd p = .panic ↔ BrokenKey p := by
  rcases p with _ | ⟨c, r⟩
  · exact ⟨fun _ => Or.inl rfl, fun _ => rfl⟩
  · unfold electrumKey BrokenKey
    simp only [index_cons_zero, Res.ok_bind, List.drop_succ_cons, List.drop_zero]
    by_cases hc : c = 0xff
    swap
    · rw [if_pos hc]
      simp [hc]
    · subst hc
      rw [if_neg (by simp)]
      by_cases h1 : r.length < 78
      · rw [if_pos h1]
        exact ⟨fun _ => Or.inr ⟨r, rfl, Or.inl h1⟩, fun _ => rfl⟩
      · rw [if_neg h1]
        by_cases h2 : r.length % 2 = 1
        · rw [derivationPath16_odd _ (by rw [List.length_drop]; omega), Res.panic_bind]
          exact ⟨fun _ => Or.inr ⟨r, rfl, Or.inr h2⟩, fun _ => rfl⟩
        · obtain ⟨s, hs⟩ := derivationPath16_even (r.drop 78) (by rw [List.length_drop]; omega)
          rw [hs, Res.ok_bind]
          constructor
          · intro h
            exfalso
            revert h
            split
            · simp
            · unfold HDKeychain.derive
              simp only [Res.bind_eq_panic]
              rintro (h | ⟨k, _, h | ⟨k2, _, h | ⟨k3, _, h⟩⟩⟩)
              · exact hd1 _ h
              · exact hd2 _ _ h
              · exact hd2 _ _ h
              · exact hd3 _ h
          · rintro (h | ⟨r', e, h⟩)
            · cases h
            · simp only [List.cons.injEq, true_and] at e
              subst e
              omega

theorem electrumKeys_panic_iff (H : HashFns) (hd : HDKeychain)
    (hd1 : ∀ s, hd.newKeyFromString s ≠ .panic) (hd2 : ∀ k i, hd.child k i ≠ .panic) (hd3 : ∀ k, hd.ecPubKey k ≠ .panic) (ps : List Bytes) :
    electrumKeys H hd ps = .panic ↔ ∃ pre p post, ps = pre ++ p :: post ∧ (∀ q ∈ pre, ∃ k, DerivesTo H hd q k) ∧ BrokenKey p := by
  induction ps with
  | nil =>
    simp only [electrumKeys]
    constructor
    · intro h; cases h
    · rintro ⟨pre, p, post, h, _⟩; simp at h
  | cons p ps ih =>
    simp only [electrumKeys, Res.bind_eq_panic, electrumKey_panic_iff H hd hd1 hd2 hd3, electrumKey_ok_iff, ih]
    constructor
    · rintro (h | ⟨k, hk, h | ⟨ks, _, h⟩⟩)
      · exact ⟨[], p, ps, rfl, by simp, h⟩
      · obtain ⟨pre, q, post, rfl, hpre, hq⟩ := h
        exact ⟨p :: pre, q, post, rfl, by simpa using ⟨⟨k, hk⟩, hpre⟩, hq⟩
      · cases h
    · rintro ⟨pre, q, post, h, hpre, hq⟩
      rcases pre with _ | ⟨p', pre⟩
      · simp only [List.nil_append, List.cons.injEq] at h
        obtain ⟨rfl, rfl⟩ := h
        exact Or.inl hq
      · simp only [List.cons_append, List.cons.injEq] at h
        obtain ⟨rfl, rfl⟩ := h
        obtain ⟨k, hk⟩ := hpre p (by simp)
        exact Or.inr ⟨k, hk, Or.inl ⟨pre, q, post, rfl, fun q hq => hpre q (by simp [hq]), hq⟩⟩

/-- C32 (b), exact panic domain, with a key library that does not panic. The script is hex and its push data make `DecodeParts` panic (C10), or it decodes to parts such that
the first part is empty; or the first part announces m = 2..15 and: nothing follows, or the only other part is empty or begins with OP_CHECKMULTISIG,
or one of the last two parts is empty, or the last begins with OP_CHECKMULTISIG and the first key that cannot be derived is a broken one.
On every other script the call returns an error or succeeds as in (a). -/
theorem C32_panic_iff (H : HashFns) (hd : HDKeychain) (script : Bytes)
    (hd1 : ∀ s, hd.newKeyFromString s ≠ .panic) (hd2 : ∀ k i, hd.child k i ≠ .panic) (hd3 : ∀ k, hd.ecPubKey k ≠ .panic) :
    NewRedeemScriptFromElectrum H hd script = .panic ↔
      DecodeStringParts script = .panic ∨
      (∃ rest, DecodeStringParts script = .ok ([] :: rest)) ∨
      ∃ (m : Nat) (a : Bytes) (rest : List Bytes), 2 ≤ m ∧ m ≤ 15 ∧ DecodeStringParts script = .ok ((UInt8.ofNat (0x50 + m) :: a) :: rest) ∧
        (rest = [] ∨ (∃ z, rest = [z] ∧ (z = [] ∨ z.head? = some 0xae)) ∨
          ∃ encs y z, rest = encs ++ [y, z] ∧ (y = [] ∨ z = [] ∨ (z.head? = some 0xae ∧
            ∃ pre p post, encs = pre ++ p :: post ∧ (∀ q ∈ pre, ∃ k, DerivesTo H hd q k) ∧ BrokenKey p))) := by
  have hsub : ∀ b : UInt8, b = UInt8.ofNat (0x50 + (b - OpBASE).toNat) := by
    apply forall_uint8; decide +kernel
  have hsub2 : ∀ n : Nat, n < 256 → (UInt8.ofNat (0x50 + n) - OpBASE).toNat = n := by
    intro n hn
    have : ∀ k : Fin 256, (UInt8.ofNat (0x50 + k.val) - OpBASE).toNat = k.val := by decide +kernel
    exact this ⟨n, hn⟩
  unfold NewRedeemScriptFromElectrum
  rcases hp : DecodeStringParts script with ps | e | _
  swap
  · simp
  swap
  · simp
  rw [Res.ok_bind]
  simp only [Res.ok.injEq, reduceCtorEq, false_or]
  rcases ps with _ | ⟨a0, rest⟩
  · simp
  rw [if_neg (by simp), List.getD_cons_zero]
  rcases a0 with _ | ⟨c, a⟩
  · simp [index]
  rw [index_cons_zero, Res.ok_bind]
  have hm : ∀ m : Nat, 2 ≤ m → m ≤ 15 → (c = UInt8.ofNat (0x50 + m) ↔ (c - OpBASE).toNat = m) := by
    intro m h1 h2
    constructor
    · rintro rfl; exact hsub2 m (by omega)
    · intro h; rw [← h]; exact hsub c
  by_cases h2 : (c - OpBASE).toNat < 2
  · rw [if_pos h2]
    constructor
    · intro h; cases h
    · rintro (⟨r, h⟩ | ⟨m, a', r, q1, q2, h, _⟩)
      · simp at h
      · simp only [List.cons.injEq] at h
        have := (hm m q1 q2).mp h.1.1
        omega
  rw [if_neg h2]
  by_cases h15 : (c - OpBASE).toNat > 15
  · rw [if_pos h15]
    constructor
    · intro h; cases h
    · rintro (⟨r, h⟩ | ⟨m, a', r, q1, q2, h, _⟩)
      · simp at h
      · simp only [List.cons.injEq] at h
        have := (hm m q1 q2).mp h.1.1
        omega
  rw [if_neg h15]
  have red : ∀ Q : List Bytes → Prop, ((∃ rest', (c :: a) :: rest = [] :: rest') ∨ ∃ (m : Nat) (a' : Bytes) (rest' : List Bytes), 2 ≤ m ∧ m ≤ 15 ∧
      (c :: a) :: rest = (UInt8.ofNat (0x50 + m) :: a') :: rest' ∧ Q rest') ↔ Q rest := by
    intro Q
    constructor
    · rintro (⟨r, h⟩ | ⟨m, a', r, _, _, h, hq⟩)
      · simp at h
      · simp only [List.cons.injEq] at h
        rw [h.2]; exact hq
    · intro hq
      exact Or.inr ⟨(c - OpBASE).toNat, a, rest, by omega, by omega, by rw [← (hm _ (by omega) (by omega)).mpr rfl], hq⟩
  refine Iff.trans ?_ (red fun rest => rest = [] ∨ (∃ z, rest = [z] ∧ (z = [] ∨ z.head? = some 0xae)) ∨
          ∃ encs y z, rest = encs ++ [y, z] ∧ (y = [] ∨ z = [] ∨ (z.head? = some 0xae ∧
            ∃ pre p post, encs = pre ++ p :: post ∧ (∀ q ∈ pre, ∃ k, DerivesTo H hd q k) ∧ BrokenKey p))).symm
  have notTwo : ∀ (z : Bytes) (encs : List Bytes) (y w : Bytes), [z] ≠ encs ++ [y, w] := by
    intro z encs y w h
    have := congrArg List.length h
    simp at this
  rcases rest with _ | ⟨b, rest⟩
  · simp
  rw [if_neg (by simp)]
  rcases rest with _ | ⟨b2, rest⟩
  · -- two parts
    simp only [List.length_cons, List.length_nil, Nat.zero_add, Nat.reduceAdd, Nat.sub_self, Nat.add_one_sub_one, List.getD_cons_zero,
      List.getD_cons_succ, index_cons_zero, Res.ok_bind]
    rcases b with _ | ⟨z0, z⟩
    · simp [index]
    · rw [index_cons_zero, Res.ok_bind]
      by_cases hz : z0 = 0xae
      · subst hz
        simp [OpCHECKMULTISIG]
      · rw [if_pos (by simpa [OpCHECKMULTISIG] using hz)]
        constructor
        · intro h; cases h
        · rintro (h | ⟨z', h, h' | h'⟩ | ⟨encs, y, w, h, _⟩)
          · simp at h
          · simp at h; rw [h'] at h; simp at h
          · simp at h; rw [← h] at h'; simp at h'; exact absurd h' hz
          · exact absurd h (notTwo _ _ _ _)
  · obtain ⟨a1, mid, y, z, e⟩ := split_three ((c :: a) :: b :: b2 :: rest) (by simp)
    have e' := e
    rw [List.cons.injEq] at e'
    rw [e, (getD_last2 a1 mid y z []).1, (getD_last2 a1 mid y z []).2, e'.2]
    have three : ∀ P : List Bytes → Bytes → Bytes → Prop, (mid ++ [y, z] = [] ∨ (∃ w, mid ++ [y, z] = [w] ∧ (w = [] ∨ w.head? = some 0xae)) ∨
        ∃ encs y' z', mid ++ [y, z] = encs ++ [y', z'] ∧ P encs y' z') ↔ P mid y z := by
      intro P
      constructor
      · rintro (h | ⟨w, h, _⟩ | ⟨encs, y', z', h, hP⟩)
        · simp at h
        · exact absurd h.symm (notTwo _ _ _ _)
        · obtain ⟨h1, h2⟩ := List.append_inj' h rfl
          simp only [List.cons.injEq, and_true] at h2
          rw [h1, h2.1, h2.2]; exact hP
      · intro h; exact Or.inr (Or.inr ⟨mid, y, z, rfl, h⟩)
    rw [three (fun encs y z => y = [] ∨ z = [] ∨ (z.head? = some 0xae ∧
            ∃ pre p post, encs = pre ++ p :: post ∧ (∀ q ∈ pre, ∃ k, DerivesTo H hd q k) ∧ BrokenKey p))]
    rcases y with _ | ⟨y0, y⟩
    · simp [index]
    rw [index_cons_zero, Res.ok_bind]
    rcases z with _ | ⟨z0, z⟩
    · simp [index]
    rw [index_cons_zero, Res.ok_bind]
    by_cases hz : z0 = 0xae
    swap
    · rw [if_pos (by simpa [OpCHECKMULTISIG] using hz)]
      simp [hz]
    · subst hz
      rw [if_neg (by simp [OpCHECKMULTISIG]), if_neg (by simp), take_drop_mid]
      rw [Res.bind_eq_panic, electrumKeys_panic_iff H hd hd1 hd2 hd3]
      constructor
      · rintro (h | ⟨ks, _, h⟩)
        · exact Or.inr (Or.inr ⟨rfl, h⟩)
        · split at h <;> cases h
      · rintro (h | h | ⟨_, h⟩)
        · cases h
        · cases h
        · exact Or.inl h

/-- A toy key derivation, to show that the hypotheses can be met. -/
def toyHD : HDKeychain where
  Key := Bytes
  newKeyFromString := fun s => .ok s
  child := fun k i => .ok (k ++ putUint32 i)
  ecPubKey := fun k => .ok (k.drop 1)

/-- Toy hash functions (constant), for concrete non-vacuity examples only. -/
def toyH : HashFns where
  sha256 := fun b => (b ++ List.replicate 32 0).take 32
  ripemd160 := fun b => (b ++ List.replicate 20 0).take 20
  sha256_length := by intro b; simp
  ripemd160_length := by intro b; simp

example : (NewRedeemScriptFromElectrum toyH toyHD (hexEncode ([0x52, 0x4c, 83] ++ electrumEncoding (List.replicate 78 1) 3 4 ++ [0x4c, 83] ++
    electrumEncoding (List.replicate 78 2) 5 6 ++ [0x52, 0xae]))).isOk = true := by decide +kernel

example : (∀ s, toyHD.newKeyFromString s ≠ .panic) ∧ DecodeStringParts b!"5203aabbcc51ae" = .ok [[0x52], [0xaa, 0xbb, 0xcc], [0x51], [0xae]] ∧
    (NewRedeemScriptFromElectrum toyH toyHD b!"5203aabbcc51ae").isErr = true := ⟨by intro s; simp [toyHD], by decide +kernel, by decide +kernel⟩

/-- C32 is violated on malformed scripts: panics instead of errors. A lone OP_2; OP_2 OP_CHECKMULTISIG; an empty first part; an empty key; a short key. -/
theorem C32_violation_witness (H : HashFns) (hd : HDKeychain) :
    NewRedeemScriptFromElectrum H hd b!"52" = .panic ∧
    NewRedeemScriptFromElectrum H hd b!"52ae" = .panic ∧
    NewRedeemScriptFromElectrum H hd b!"4c00" = .panic ∧
    NewRedeemScriptFromElectrum H hd b!"524c0051ae" = .panic ∧
    NewRedeemScriptFromElectrum H hd b!"5203ff010251ae" = .panic := by
  refine ⟨?_, ?_, ?_, ?_, ?_⟩ <;> rfl

end Verif.Props
