import Verif.Props.Spendable
/-!
# C98: redeem scripts with any number of keys

`NewRedeemScript` bounds the number of signatures, `AddPublicKey` does not bound the number of keys. The byte 0x50 + n that `GetRedeemScript` writes stands for the number n only up to 16.
-/
namespace Verif.Props
open Verif Spec Transaction

/-- C98: the bytes of every redeem script, whatever the signature count and the keys: 0x50 + m modulo 256, then each key, in lexicographic order, behind one byte with its length modulo
256, then 0x50 + n modulo 256 and OP_CHECKMULTISIG. -/
theorem C98_bytes (rs : RedeemScript) :
    ∃ keys : List Bytes, keys.Perm rs.PublicKeys ∧ keys.Pairwise lexLe ∧
      (GetRedeemScript rs).1 = [UInt8.ofNat ((0x50 + rs.SignaturesRequired) % 256).toNat] ++ keys.flatMap (fun k => UInt8.ofNat (k.length % 256) :: k) ++
        [UInt8.ofNat ((0x50 + rs.PublicKeys.length) % 256), 0xae] := by
  have hb : ∀ n : Int, Op.OpBASE + byteOfInt n = UInt8.ofNat ((0x50 + n) % 256).toNat := by
    intro n
    apply UInt8.toNat_inj.mp
    have e : (Op.OpBASE).toNat = 80 := rfl
    rw [UInt8.toNat_add, e]
    unfold byteOfInt
    rw [UInt8.toNat_ofNat', UInt8.toNat_ofNat']
    omega
  refine ⟨SortByteArrays rs.PublicKeys, C05_sort_perm _, C05_sort_sorted _, ?_⟩
  have hk : ∀ ks : List Bytes, redeemKeys ks = ks.flatMap (fun k => UInt8.ofNat (k.length % 256) :: k) := by
    intro ks
    induction ks with
    | nil => rfl
    | cons k ks ih =>
      have : UInt8.ofNat k.length = UInt8.ofNat (k.length % 256) := by
        apply UInt8.toNat_inj.mp; rw [UInt8.toNat_ofNat', UInt8.toNat_ofNat']; omega
      rw [redeemKeys, ih, this]; simp
  have hl : ((0x50 + ((SortByteArrays rs.PublicKeys).length : Int)) % 256).toNat = (0x50 + rs.PublicKeys.length) % 256 := by
    rw [(C05_sort_perm rs.PublicKeys).length_eq]; omega
  simp only [GetRedeemScript, hb, hk, hl, Op.OpCHECKMULTISIG]
  simp

example : (GetRedeemScript ⟨-79, List.replicate 17 [7], []⟩).1 = 1 :: List.flatten (List.replicate 17 [1, 7]) ++ [0x61, 0xae] := by decide +kernel

/-- Tokens of a redeem script with at most 175 keys are tokens. -/
theorem manyTokens_valid (m : Nat) (hm : 1 ≤ m ∧ m ≤ 16) (keys : List Bytes) (hn : keys.length ≤ 175) (hk : ∀ k ∈ keys, 1 ≤ k.length ∧ k.length ≤ 75) :
    ∀ t ∈ multisigTokens m keys, t.Valid := by
  have hall : ∀ n : Nat, n ≤ 175 → (0x4e : UInt8) < UInt8.ofNat (0x50 + n) := by
    intro n hn
    rw [UInt8.lt_iff_toNat_lt, UInt8.toNat_ofNat', Nat.mod_eq_of_lt (by omega)]
    have h4e : (0x4e : UInt8).toNat = 78 := rfl
    omega
  intro t ht
  simp only [multisigTokens, List.mem_cons, List.mem_append, List.mem_map, List.not_mem_nil, or_false] at ht
  rcases ht with rfl | ⟨k, hk', rfl⟩ | rfl | rfl
  · exact Or.inr (hall m (by omega))
  · exact hk k hk'
  · exact Or.inr (hall _ hn)
  · exact Or.inr (by decide)

/-- C98: up to 175 keys of 1 to 75 bytes the script decodes to the byte 0x50 + m, the sorted keys, the byte 0x50 + n and OP_CHECKMULTISIG; `IsMultisigOut` recognises it exactly
for 1 to 16 keys. -/
theorem C98_recognised (rs : RedeemScript) (m : Nat) (hr : rs.SignaturesRequired = m) (hm : 1 ≤ m ∧ m ≤ 16) (hn : rs.PublicKeys.length ≤ 175)
    (hk : ∀ k ∈ rs.PublicKeys, 1 ≤ k.length ∧ k.length ≤ 75) :
    (∃ keys : List Bytes, keys.Perm rs.PublicKeys ∧ keys.Pairwise lexLe ∧
      DecodeParts (GetRedeemScript rs).1 = .ok ([UInt8.ofNat (0x50 + m)] :: (keys ++ [[UInt8.ofNat (0x50 + rs.PublicKeys.length)], [0xae]]))) ∧
    (IsMultisigOut (GetRedeemScript rs).1 = .ok true ↔ 1 ≤ rs.PublicKeys.length ∧ rs.PublicKeys.length ≤ 16) := by
  have hp := C05_sort_perm rs.PublicKeys
  have ht := redeem_tokens rs m hr _ hp (C05_sort_sorted _)
  have hk' : ∀ k ∈ SortByteArrays rs.PublicKeys, 1 ≤ k.length ∧ k.length ≤ 75 := fun k h => hk k (hp.mem_iff.mp h)
  have hdec : DecodeParts (GetRedeemScript rs).1 = .ok ([UInt8.ofNat (0x50 + m)] :: (SortByteArrays rs.PublicKeys ++ [[UInt8.ofNat (0x50 + rs.PublicKeys.length)], [0xae]])) := by
    rw [ht, decodeParts_tokens _ (manyTokens_valid m hm _ (by rw [hp.length_eq]; exact hn) hk')]
    · have : (SortByteArrays rs.PublicKeys).map (Token.payload ∘ Token.direct) = SortByteArrays rs.PublicKeys := by
        conv_rhs => rw [← List.map_id (SortByteArrays rs.PublicKeys)]
        rfl
      simp [multisigTokens, payloads, Token.payload, this, hp.length_eq]
    · intro t h
      simp only [multisigTokens, List.mem_cons, List.mem_append, List.mem_map, List.not_mem_nil, or_false] at h
      rcases h with rfl | ⟨k, _, rfl⟩ | rfl | rfl <;> trivial
  have vb : ∀ n : Nat, n ≤ 175 → (UInt8.ofNat (0x50 + n)).toNat = 0x50 + n := fun n h => by rw [UInt8.toNat_ofNat', Nat.mod_eq_of_lt (by omega)]
  have small : ∀ n : Nat, n ≤ 175 → (IsSmallInt (UInt8.ofNat (0x50 + n)) ↔ 1 ≤ n ∧ n ≤ 16) := by
    intro n h
    have e51 : (0x51 : UInt8).toNat = 81 := rfl
    have e60 : (0x60 : UInt8).toNat = 96 := rfl
    unfold IsSmallInt
    rw [UInt8.le_iff_toNat_le, UInt8.le_iff_toNat_le, vb n h, e51, e60]
    constructor
    · rintro (h0 | h0)
      · have := congrArg UInt8.toNat h0
        rw [vb n h] at this
        have e0 : (0 : UInt8).toNat = 0 := rfl
        omega
      · omega
    · intro h0; right; omega
  refine ⟨⟨_, hp, C05_sort_sorted _, hdec⟩, ?_⟩
  rw [isMultisigOut_parts _ _ hdec]
  constructor
  · rintro ⟨a, b, mid, n, y, z, e, h1, h2, h3⟩
    simp only [List.cons.injEq] at e
    obtain ⟨-, e⟩ := e
    have e' : SortByteArrays rs.PublicKeys ++ [[UInt8.ofNat (0x50 + rs.PublicKeys.length)], [0xae]] = mid ++ [n :: y, 0xae :: z] := e
    have := (List.append_inj' e' (by simp)).2
    simp only [List.cons.injEq] at this
    rw [← this.1.1] at h2
    exact (small _ hn).mp h2
  · intro h
    exact ⟨_, [], _, _, [], [], rfl, (small m (by omega)).mpr hm, (small _ hn).mpr h, fun p hp' e => by have := (hk' p hp').1; rw [e] at this; simp at this⟩

example : IsMultisigOut (GetRedeemScript ⟨2, List.replicate 17 [2, 9], []⟩).1 = .ok false ∧ IsMultisigOut (GetRedeemScript ⟨2, List.replicate 16 [2, 9], []⟩).1 = .ok true := by
  decide +kernel

/-- A compressed public key, as `AddPublicKey` adds them: 33 bytes, the first 2 or 3. -/
def CompressedKey (k : Bytes) : Prop := k.length = 33 ∧ (k.head? = some 2 ∨ k.head? = some 3)

/-- C98 (deviation): 17 keys, the first number too many: the script is made all the same, ends OP_NOP OP_CHECKMULTISIG, and nobody can spend it. -/
theorem C98_seventeen (H : HashFns) (verify : Bytes → Bytes → Bytes → Bool) (rs : RedeemScript) (m : Nat) (hr : rs.SignaturesRequired = m) (hm : 1 ≤ m ∧ m ≤ 16)
    (hn : rs.PublicKeys.length = 17) (hk : ∀ k ∈ rs.PublicKeys, CompressedKey k) (tx : Transaction) (k : Nat) (sats : UInt64) :
    ¬ Accepted H verify tx k (GetRedeemScript rs).1 sats := by
  have hp := C05_sort_perm rs.PublicKeys
  have ht := redeem_tokens rs m hr _ hp (C05_sort_sorted _)
  have hl : (SortByteArrays rs.PublicKeys).length = 17 := by rw [hp.length_eq, hn]
  have hk' : ∀ x ∈ SortByteArrays rs.PublicKeys, x.length = 33 := fun x h => (hk x (hp.mem_iff.mp h)).1
  generalize SortByteArrays rs.PublicKeys = keys at ht hl hk'
  have hv := manyTokens_valid m hm keys (by omega) (fun x h => by rw [hk' x h]; omega)
  rw [accepted_iff H verify tx k _ sats _ ht hv]
  rintro ⟨inp, unl, items, fin, -, -, -, h4, -⟩
  rw [multisigTokens, evalTokens, if_neg (eval_small H (fun _ _ => true) m hm []).2, (eval_small H _ m hm _).1, Option.bind_some,
    eval_append _ _ _ _ _ (by simp), eval_keys, Option.bind_some, hl] at h4
  rcases hrev : keys.reverse with _ | ⟨top, below⟩
  · have := congrArg List.length hrev; simp at this; rw [this] at hl; simp at hl
  · have htop : top.length = 33 := hk' top (by rw [← List.mem_reverse, hrev]; simp)
    rw [hrev] at h4
    have hc : count top = none := by
      rcases top with _ | ⟨a, _ | ⟨b, t⟩⟩
      · simp at htop
      · simp at htop
      · rfl
    have e61 : UInt8.ofNat (0x50 + 17) = 0x61 := by decide
    rw [e61] at h4
    simp [evalTokens, evalToken, checkMultiSig, popMany, hc] at h4

/-- C98 (deviation): 26 keys: the number of keys is written as OP_RETURN, which ends the script with the last key, true, on the stack. So anyone can spend it, without any signature: every
input with an empty unlocking script does. -/
theorem C98_twentysix (H : HashFns) (verify : Bytes → Bytes → Bytes → Bool) (rs : RedeemScript) (m : Nat) (hr : rs.SignaturesRequired = m) (hm : 1 ≤ m ∧ m ≤ 16)
    (hn : rs.PublicKeys.length = 26) (hk : ∀ k ∈ rs.PublicKeys, CompressedKey k) (tx : Transaction) (k : Nat) (sats : UInt64) (inp : Input)
    (hi : tx.Inputs[k]? = some inp) (hu : inp.UnlockingScript = some []) :
    Accepted H verify tx k (GetRedeemScript rs).1 sats := by
  have hp := C05_sort_perm rs.PublicKeys
  have ht := redeem_tokens rs m hr _ hp (C05_sort_sorted _)
  have hl : (SortByteArrays rs.PublicKeys).length = 26 := by rw [hp.length_eq, hn]
  have hk' : ∀ x ∈ SortByteArrays rs.PublicKeys, CompressedKey x := fun x h => hk x (hp.mem_iff.mp h)
  generalize SortByteArrays rs.PublicKeys = keys at ht hl hk'
  have hv := manyTokens_valid m hm keys (by omega) (fun x h => by rw [(hk' x h).1]; omega)
  rw [accepted_iff H verify tx k _ sats _ ht hv]
  refine ⟨inp, [], [], keys.reverse ++ [[UInt8.ofNat m]], hi, hu, ⟨[], rfl, by simp, rfl⟩, ?_, ?_⟩
  · rw [multisigTokens, evalTokens, if_neg (eval_small H (fun _ _ => true) m hm []).2, (eval_small H _ m hm _).1, Option.bind_some,
      eval_append _ _ _ _ _ (by simp), eval_keys, Option.bind_some, hl]
    have e6a : UInt8.ofNat (0x50 + 26) = 0x6a := by decide
    rw [e6a, evalTokens, if_pos rfl]
    rfl
  · rcases hrev : keys.reverse with _ | ⟨top, below⟩
    · have := congrArg List.length hrev; simp at this; rw [this] at hl; simp at hl
    · obtain ⟨h33, hh⟩ := hk' top (by rw [← List.mem_reverse, hrev]; simp)
      rcases top with _ | ⟨a, t⟩
      · simp at h33
      · refine ⟨0, a, rfl, ?_, ?_⟩
        · rcases hh with hh | hh <;> (simp at hh; subst hh; decide)
        · rintro ⟨-, h⟩; simp at h33 h; rw [h] at h33; simp at h33

/-- non-vacuity: 26 compressed keys can be added, and the input of a transaction spends the script with nothing -/
example : Accepted toyH selfVerify (exUnlocked []) 0 (GetRedeemScript ⟨2, List.replicate 26 (2 :: List.replicate 32 7), []⟩).1 5 := by
  obtain ⟨inp, h1, h2⟩ := exUnlocked_input []
  exact C98_twentysix toyH selfVerify _ 2 rfl (by omega) (by simp) (fun k hk => by rw [List.eq_of_mem_replicate hk]; exact ⟨by simp, Or.inl rfl⟩) _ 0 5 inp h1 h2

example : ∃ rs : RedeemScript, rs.SignaturesRequired = (2 : Nat) ∧ rs.PublicKeys.length = 17 ∧ ∀ k ∈ rs.PublicKeys, CompressedKey k :=
  ⟨⟨2, List.replicate 17 (3 :: List.replicate 32 7), []⟩, rfl, by simp, fun k hk => by rw [List.eq_of_mem_replicate hk]; exact ⟨by simp, Or.inr rfl⟩⟩

end Verif.Props
