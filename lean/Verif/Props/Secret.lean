import Verif.Spec.Secret
import Verif.Props.Ledger
import Verif.Props.Spendable
/-!
# C130: selling a secret

A buyer pays to a hash puzzle of the secret (`output.NewHashPuzzle`) and the seller's key. The seller can take the money only with the secret, and the buyer reads it from the seller's transaction.
-/
namespace Verif.Props
open Verif Spec Transaction

/-- The seller, with the library: sign the input, append a push of the secret to the unlocking script that `Sign` has set, set it again. -/
def claimPuzzle (H : HashFns) (is : InternalSigner) (secret : Bytes) (idx : UInt32) (tx : Transaction) : Res Transaction := do
  let t ← is.Sign H idx tx
  let i ← index t.Inputs idx.toNat
  match i.UnlockingScript with
  | none => .panic
  | some u => do
    let u' ← AppendPushData u secret
    t.ApplyUnlockingScript idx u'

/-- The buyer, with the library: parse the transaction, find the input that spends output `v` of transaction `t`, decode its unlocking script, take the last part. -/
def readSecret (b spare : Bytes) (t : Bytes) (v : UInt32) : Res Bytes := do
  let tx ← NewFromBytes ⟨b, spare⟩
  match tx.Inputs.find? fun i => i.PreviousTxID == t && i.PreviousTxOutIndex == v with
  | none => .err "no such input"
  | some i => match i.UnlockingScript with
    | none => .panic
    | some u => do
      let ps ← DecodeParts u
      match ps.getLast? with
      | none => .panic
      | some p => pure p

theorem opcodeFor_payload {t : Token} (hv : t.Valid) (hp : PushOnly t) (h5 : t ≠ .op 0x50) : t.payload = pushValue t ∨ OpcodeFor t.payload (pushValue t) := by
  cases t with
  | op o =>
    right
    simp only [Token.Valid, PushOnly] at hv hp
    simp only [Token.payload, pushValue]
    by_cases h0 : o = 0
    · subst h0; exact .inl ⟨rfl, rfl⟩
    rw [if_neg h0]
    by_cases h1 : o = 0x4f
    · subst h1; exact .inr (.inl ⟨rfl, rfl⟩)
    rw [if_neg h1]
    have hv := hv.resolve_left h0
    have h50 : o ≠ 0x50 := fun e => h5 (by rw [e])
    rw [UInt8.lt_iff_toNat_lt] at hv
    rw [UInt8.le_iff_toNat_le] at hp
    have e1 : o.toNat ≠ 0x4f := fun e => h1 (UInt8.toNat_inj.mp (by rw [e]; rfl))
    have e2 : o.toNat ≠ 0x50 := fun e => h50 (UInt8.toNat_inj.mp (by rw [e]; rfl))
    have e3 : (0x4e : UInt8).toNat = 0x4e := rfl
    have e4 : (0x60 : UInt8).toNat = 0x60 := rfl
    rw [e3] at hv; rw [e4] at hp
    refine .inr (.inr ⟨o.toNat - 0x50, by omega, by omega, ?_, ?_⟩)
    · rw [show 0x50 + (o.toNat - 0x50) = o.toNat by omega, UInt8.ofNat_toNat]
    · congr 1
      apply UInt8.toNat_inj.mp
      rw [UInt8.toNat_sub_of_le _ _ (by rw [UInt8.le_iff_toNat_le]; show 0x50 ≤ _; omega), UInt8.toNat_ofNat']
      show o.toNat - 0x50 = _
      omega
  | direct d | pd1 d | pd2 d | pd4 d => exact .inl rfl

theorem bytesOf_mem_length {ts : List Token} {t : Token} (h : t ∈ ts) : t.bytes.length ≤ (bytesOf ts).length := by
  induction ts with
  | nil => cases h
  | cons u us ih =>
    have e : bytesOf (u :: us) = u.bytes ++ bytesOf us := by simp [bytesOf]
    rw [e, List.length_append]
    rcases List.mem_cons.mp h with rfl | h
    · omega
    · have := ih h; omega

/-- What `DecodeParts` gives for a script that pushes: the last part is the last item pushed, or the opcode that pushes it; or it panics, which it does not for a short script. -/
theorem decode_pushes {u : Bytes} {items : List Bytes} {x : Bytes} (h : Pushes u (items ++ [x])) :
    (DecodeParts u = .panic ∧ 65536 ≤ u.length) ∨ ∃ ps p, DecodeParts u = .ok ps ∧ ps.getLast? = some p ∧ (p = x ∨ OpcodeFor p x) := by
  obtain ⟨us, rfl, hus, hit⟩ := h
  by_cases hd : ∀ t ∈ us, Decodable t
  · right
    have hl := congrArg List.getLast? hit
    rw [List.getLast?_append, List.getLast?_singleton, Option.some_or, List.getLast?_map] at hl
    rcases hg : us.getLast? with _ | t
    · rw [hg] at hl; cases hl
    · rw [hg, Option.map_some, Option.some.injEq] at hl
      have ht := hus t (List.mem_of_getLast? hg)
      refine ⟨_, t.payload, decodeParts_tokens us (fun t h => (hus t h).1) hd, by rw [payloads, List.getLast?_map, hg]; rfl, ?_⟩
      rw [hl]
      exact opcodeFor_payload ht.1 ht.2.1 ht.2.2
  · left
    classical
    have hex : ∃ t ∈ us, ¬ Decodable t := by by_contra hc; exact hd fun t ht => by by_contra hh; exact hc ⟨t, ht, hh⟩
    have hsplit : ∃ pre t post, us = pre ++ t :: post ∧ ¬ Decodable t ∧ ∀ y ∈ pre, Decodable y := by
      clear hit hus hd
      induction us with
      | nil => obtain ⟨t, ht, -⟩ := hex; cases ht
      | cons a us ih =>
        by_cases ha : Decodable a
        · obtain ⟨t, ht, hn⟩ := hex
          rcases List.mem_cons.mp ht with rfl | ht
          · exact absurd ha hn
          · obtain ⟨pre, t, post, rfl, h1, h2⟩ := ih ⟨t, ht, hn⟩
            exact ⟨a :: pre, t, post, rfl, h1, by intro y hy; rcases List.mem_cons.mp hy with rfl | hy; exacts [ha, h2 y hy]⟩
        · exact ⟨[], a, us, rfl, ha, by simp⟩
    obtain ⟨pre, t, post, rfl, hn, hpre⟩ := hsplit
    have hv := (hus t (by simp)).1
    constructor
    · rw [bytesOf_append]
      apply decodeParts_bad_prefix pre (fun y hy => (hus y (by simp [hy])).1) hpre
      have e : bytesOf (t :: post) = t.bytes ++ bytesOf post := by simp [bytesOf]
      rw [e]
      cases t with
      | pd2 d =>
        simp only [Token.Valid, Decodable] at hv hn
        refine .inl ⟨leBytes 2 d.length, d ++ bytesOf post, by simp [Token.bytes, Token.header, Token.data], by simp, ?_⟩
        rw [leNat_leBytes]
        omega
      | pd4 d =>
        simp only [Token.Valid, Decodable] at hv hn
        refine .inr ⟨leBytes 4 d.length, d ++ bytesOf post, by simp [Token.bytes, Token.header, Token.data], by simp, ?_⟩
        rw [leNat_leBytes]
        omega
      | op o => exact absurd trivial hn
      | direct d => exact absurd trivial hn
      | pd1 d => exact absurd trivial hn
    · refine le_trans ?_ (bytesOf_mem_length (t := t) (by simp))
      cases t with
      | pd2 d => simp only [Decodable] at hn; simp [Token.bytes, Token.header, Token.data]; omega
      | pd4 d => simp only [Decodable] at hn; simp [Token.bytes, Token.header, Token.data]; omega
      | op o => exact absurd trivial hn
      | direct d => exact absurd trivial hn
      | pd1 d => exact absurd trivial hn

/-- The input that spends the output, in a transaction in wire form. -/
theorem find_spending {tx : Transaction} {b : Bytes} (h : IsTx CompactSize tx b) (hash : Bytes) (hl : hash.length = 32) (v : UInt32)
    (hin : hash ++ leBytes 4 v.toNat ∈ tx.Inputs.map outpoint) :
    ∃ (k : Nat) (i : Input), tx.Inputs[k]? = some i ∧ outpoint i = hash ++ leBytes 4 v.toNat ∧
      (tx.Inputs.find? fun i => i.PreviousTxID == hexEncode hash.reverse && i.PreviousTxOutIndex == v) = some i := by
  have key : ∀ i ∈ tx.Inputs, ((i.PreviousTxID == hexEncode hash.reverse && i.PreviousTxOutIndex == v) = true ↔ outpoint i = hash ++ leBytes 4 v.toNat) := by
    intro i hi
    obtain ⟨ci, bi, co, bo, -, h2, -⟩ := h
    obtain ⟨bx, txid, count, scr, g1, -, -, g4, -⟩ := isSeq_mem h2 i hi
    simp only [Bool.and_eq_true, beq_iff_eq, outpoint, g4, hexDecodeIgnore_encode, List.reverse_reverse]
    constructor
    · rintro ⟨e, rfl⟩
      have e := congrArg hexDecodeIgnore e
      rw [hexDecodeIgnore_encode, hexDecodeIgnore_encode] at e
      rw [List.reverse_injective e]
    · intro e
      obtain ⟨e1, e2⟩ := List.append_inj e (by rw [g1, hl])
      refine ⟨by rw [e1], UInt32.toNat_inj.mp (leBytes4_inj (UInt32.toNat_lt _) (UInt32.toNat_lt _) e2)⟩
  obtain ⟨i0, hi0, e0⟩ := List.mem_map.mp hin
  rcases hf : tx.Inputs.find? (fun i => i.PreviousTxID == hexEncode hash.reverse && i.PreviousTxOutIndex == v) with _ | i
  · exact absurd ((key i0 hi0).mpr e0) (List.find?_eq_none.mp hf i0 hi0)
  · have hm := List.mem_of_find?_eq_some hf
    obtain ⟨k, hk⟩ := List.mem_iff_getElem?.mp hm
    exact ⟨k, i, hk, (key i hm).mp (List.find?_some (p := fun i : Input => i.PreviousTxID == hexEncode hash.reverse && i.PreviousTxOutIndex == v) hf), hf⟩

/-- A transaction that makes a coin disappear names it. -/
theorem spent_named {L : Ledger} {hash key : Bytes} {tx : Transaction} (h : L.after hash tx key = none) (hk : L key ≠ none) : key ∈ tx.Inputs.map outpoint := by
  unfold Ledger.after at h
  rcases hlk : (created hash tx).lookup key with _ | c <;> rw [hlk] at h
  · by_contra hc
    simp only [if_neg hc] at h
    exact hk h
  · cases h

theorem isSeq_mem_len {α : Type} {P : α → Bytes → Prop} {xs : List α} : ∀ {b : Bytes}, IsSeq P xs b → ∀ x ∈ xs, ∃ bx, P x bx ∧ bx.length ≤ b.length := by
  induction xs with
  | nil => simp
  | cons x xs ih =>
    rintro b ⟨b1, b2, h1, h2, rfl⟩ y hy
    rcases List.mem_cons.mp hy with rfl | hy
    · exact ⟨b1, h1, by simp⟩
    · obtain ⟨bx, g1, g2⟩ := ih h2 y hy
      exact ⟨bx, g1, by simp; omega⟩

theorem isTx_script_length {tx : Transaction} {b : Bytes} (h : IsTx CompactSize tx b) {i : Input} (hi : i ∈ tx.Inputs) {u : Bytes} (hu : i.UnlockingScript = some u) : u.length < b.length := by
  obtain ⟨ci, bi, co, bo, -, h2, -, -, rfl⟩ := h
  obtain ⟨bx, ⟨txid, count, scr, g1, -, rfl, -, g5, -⟩, g⟩ := isSeq_mem_len h2 i hi
  rw [hu] at g5
  injection g5 with g5
  subst g5
  simp only [List.length_append, g1, leBytes_length] at g ⊢
  omega

/-- C130 (the buyer): an unspent output made by `NewHashPuzzle`, a transaction that a node accepts, by whoever made, after which the output is spent. Then what the buyer reads is a string with the same
HASH160 as the secret, or the opcode that pushes such a string; or `DecodeParts` panics, which it never does if the transaction has less than 65536 bytes. -/
theorem C130_reveals (H : HashFns) (verify : Bytes → Bytes → Bytes → Bool) (secret h : Bytes) (hl : h.length = 20) (sats : UInt64) (o : Output)
    (ho : Output.NewHashPuzzle H secret (hexEncode h) sats = .ok o) (L L' : Ledger) (hash : Bytes) (h32 : hash.length = 32) (v : UInt32)
    (hL : L (hash ++ leBytes 4 v.toNat) = some ⟨o.Satoshis, o.LockingScript⟩) (b spare : Bytes) (hcap : b.length + spare.length < 2 ^ 62)
    (hb : NodeAccepts H verify L b L') (hs : L' (hash ++ leBytes 4 v.toNat) = none) :
    ∃ x, H.ripemd160 (H.sha256 x) = H.ripemd160 (H.sha256 secret) ∧
      ((readSecret b spare (hexEncode hash.reverse) v = .panic ∧ 65536 ≤ b.length) ∨
        ∃ p, readSecret b spare (hexEncode hash.reverse) v = .ok p ∧ (p = x ∨ OpcodeFor p x)) := by
  obtain ⟨-, -, tx, h3, h4, rfl⟩ := hb
  have h3 := isTx_mono h3
  obtain ⟨k, i, hk, he, hf⟩ := find_spending h3 hash h32 v (spent_named hs (by rw [hL]; simp))
  obtain ⟨c, hc, ha⟩ := h4.spends k i hk
  rw [he, hL] at hc
  injection hc with hc
  subst hc
  obtain ⟨inp, unl, before, item, pub, x, g1, g2, g3, g4, -, -⟩ := (C84_hashPuzzle_iff H verify secret h hl sats o ho tx k).mp ha
  rw [hk] at g1
  injection g1 with g1
  subst g1
  refine ⟨x, g4, ?_⟩
  unfold readSecret
  rw [(C35_accepts_iff b spare hcap tx).mpr h3]
  simp only [Res.ok_bind, hf, g2]
  have hlen := isTx_script_length h3 (List.mem_of_getElem? hk) g2
  rcases decode_pushes (items := before ++ [item, pub]) (x := x) (by simpa using g3) with ⟨e, hl⟩ | ⟨ps, p, e1, e2, e3⟩
  · left; rw [e]; exact ⟨rfl, by omega⟩
  · right; rw [e1]; simp only [Res.ok_bind, e2, Res.pure_eq]; exact ⟨p, rfl, e3⟩

/-- C130 (the buyer gets what he has paid for): if the secret has at least two bytes and the transaction that takes the money has less than 65536 bytes, the buyer reads the secret, exactly, unless another
string has the same HASH160 and he reads that one. -/
theorem C130_buys (H : HashFns) (verify : Bytes → Bytes → Bytes → Bool) (secret h : Bytes) (hl : h.length = 20) (sats : UInt64) (o : Output)
    (ho : Output.NewHashPuzzle H secret (hexEncode h) sats = .ok o) (L L' : Ledger) (hash : Bytes) (h32 : hash.length = 32) (v : UInt32)
    (hL : L (hash ++ leBytes 4 v.toNat) = some ⟨o.Satoshis, o.LockingScript⟩) (b spare : Bytes) (hcap : b.length + spare.length < 2 ^ 62)
    (hb : NodeAccepts H verify L b L') (hs : L' (hash ++ leBytes 4 v.toNat) = none) (h2 : 2 ≤ secret.length) (hsmall : b.length < 65536) :
    readSecret b spare (hexEncode hash.reverse) v = .ok secret ∨
      ∃ p x, readSecret b spare (hexEncode hash.reverse) v = .ok p ∧ (p = x ∨ OpcodeFor p x) ∧ x ≠ secret ∧ H.ripemd160 (H.sha256 x) = H.ripemd160 (H.sha256 secret) := by
  obtain ⟨x, hx, ⟨-, h⟩ | ⟨p, h, hp⟩⟩ := C130_reveals H verify secret h hl sats o ho L L' hash h32 v hL b spare hcap hb hs
  · omega
  · by_cases e : x = secret
    · subst e
      rcases hp with rfl | hp
      · exact .inl h
      · exfalso
        rcases hp with ⟨-, rfl⟩ | ⟨-, rfl⟩ | ⟨n, -, -, -, rfl⟩ <;> simp at h2
    · exact .inr ⟨p, x, h, hp, e, hx⟩

/-! ## The seller -/

theorem claim_eq (H : HashFns) (is : InternalSigner) (hz : SignerSized is) (secret : Bytes) (hlen : secret.length < 2 ^ 32) (idx : UInt32) (tx : Transaction) (hs : Sized tx) (tx1 : Transaction)
    (h : is.Sign H idx tx = .ok tx1) :
    ∃ inp code sig, tx.Inputs[idx.toNat]? = some inp ∧ inp.PreviousTxScript = some code ∧
      is.sign (H.sha256 (H.sha256 (preimage (fun b => H.sha256 (H.sha256 b)) tx idx.toNat inp code (flagOrDefault is.SigHashFlag)))) = .ok sig ∧
      claimPuzzle H is secret idx tx = .ok (withUnlocking tx idx.toNat ([sig ++ [flagOrDefault is.SigHashFlag], is.pubKey, secret].flatMap push)) := by
  obtain ⟨inp, code, sig, h1, -, h3, h4, h5⟩ := C47_sign_ok H is hz tx hs idx tx1 h
  refine ⟨inp, code, sig, h1, h3, h4, ?_⟩
  have hlt : idx.toNat < tx.Inputs.length := (List.getElem?_eq_some_iff.mp h1).1
  have hlt1 : idx.toNat < tx1.Inputs.length := by rw [h5]; simpa [withUnlocking] using hlt
  unfold claimPuzzle
  rw [h, Res.ok_bind]
  have e1 : index tx1.Inputs idx.toNat = .ok { inp with UnlockingScript := some (push (sig ++ [flagOrDefault is.SigHashFlag]) ++ push is.pubKey) } := by
    rw [h5]
    simp [index, withUnlocking, List.getElem?_mapIdx, h1]
  rw [e1, Res.ok_bind]
  have e2 : AppendPushData (push (sig ++ [flagOrDefault is.SigHashFlag]) ++ push is.pubKey) secret = .ok ([sig ++ [flagOrDefault is.SigHashFlag], is.pubKey, secret].flatMap push) := by
    unfold AppendPushData
    rw [(encodeParts_ok_iff [secret] _).mpr ⟨by intro p hp; rw [List.mem_singleton.mp hp]; omega, rfl⟩]
    simp [push_eq, bytesOf]
  simp only [e2, Res.ok_bind]
  rw [applyUnlocking_eq _ hlt1, h5]
  congr 1
  unfold withUnlocking
  congr 1
  rw [List.mapIdx_mapIdx]
  congr 1
  funext j i
  simp only [Function.comp]
  split <;> rfl

theorem signedBy_unlocking {H : HashFns} {verify : Bytes → Bytes → Bytes → Bool} {tx tx' : Transaction} (h : SameButUnlocking tx tx') (k : Nat) (inp : Input) (u : Option Bytes) (code : Bytes) (sats : UInt64) (pub item : Bytes) :
    SignedBy H verify tx k inp code sats pub item ↔ SignedBy H verify tx' k { inp with UnlockingScript := u } code sats pub item := by
  unfold SignedBy
  have : ∀ flag, preimage (fun b => H.sha256 (H.sha256 b)) tx k { inp with PreviousTxSatoshis := sats } code flag =
      preimage (fun b => H.sha256 (H.sha256 b)) tx' k { { inp with UnlockingScript := u } with PreviousTxSatoshis := sats } code flag := by
    intro flag
    rw [preimage_same h]
    exact preimage_inp _ _ _ _ _ _ _ rfl rfl rfl rfl
  simp only [this]

/-- C130 (the seller): the input of a transaction that spends the output, described correctly; a key with the hash named in the puzzle. Then the steps succeed, change nothing but the unlocking script of
the input, and the input is accepted; and what is read from the transaction is the secret, unless its length is one that `DecodeParts` panics for. (An empty secret is read as the byte 0.) -/
theorem C130_claim (H : HashFns) (verify : Bytes → Bytes → Bytes → Bool) (is : InternalSigner) (hg : GoodSigner verify is)
    (hsz : is.pubKey.length ≤ 65532 ∧ ∀ d s, is.sign d = .ok s → s.length ≤ 65531) (secret : Bytes) (hlen : secret.length < 2 ^ 32) (sats : UInt64) (o : Output)
    (ho : Output.NewHashPuzzle H secret (hexEncode (H.ripemd160 (H.sha256 is.pubKey))) sats = .ok o) (tx : Transaction) (hs : Sized tx)
    (ht : ∀ i ∈ tx.Inputs, IsTxId i.PreviousTxID) (hd : (tx.Inputs.map outpoint).Nodup) (idx : UInt32) (inp : Input)
    (hi : tx.Inputs[idx.toNat]? = some inp) (hps : inp.PreviousTxScript = some o.LockingScript) (hpa : inp.PreviousTxSatoshis = o.Satoshis) :
    ∃ tx', claimPuzzle H is secret idx tx = .ok tx' ∧ SameButUnlocking tx tx' ∧ (∀ j, j ≠ idx.toNat → tx'.Inputs[j]? = tx.Inputs[j]?) ∧
      Accepted H verify tx' idx.toNat o.LockingScript o.Satoshis ∧
      ∀ spare : Bytes, tx'.ToBytes.length + spare.length < 2 ^ 62 →
        (¬ overflowLength secret.length → readSecret tx'.ToBytes spare (inp.PreviousTxID.map lowerChar) inp.PreviousTxOutIndex = .ok (if secret = [] then [0] else secret)) ∧
        (overflowLength secret.length → readSecret tx'.ToBytes spare (inp.PreviousTxID.map lowerChar) inp.PreviousTxOutIndex = .panic) := by
  obtain ⟨hz, ⟨hpne, hflag⟩, hsign⟩ := hg
  have hne : inp.PreviousTxID ≠ [] := by
    intro e
    have := (ht inp (List.mem_of_getElem? hi)).1
    rw [e] at this; simp at this
  have hok := (C47_domain H is (fun d => by obtain ⟨s, hs, -⟩ := hsign d; rw [hs]; rfl) tx hs idx).mpr ⟨inp, _, hi, hne, hps⟩
  rcases hS : is.Sign H idx tx with tx1 | e | _ <;> rw [hS] at hok
  rotate_left
  · cases hok
  · cases hok
  obtain ⟨inp', code, sig, h1, h2, h3, h4⟩ := claim_eq H is hz secret hlen idx tx hs tx1 hS
  rw [hi] at h1
  injection h1 with h1
  subst h1
  rw [hps] at h2
  injection h2 with h2
  subst h2
  obtain ⟨tx', htx'⟩ : ∃ tx', tx' = withUnlocking tx idx.toNat ([sig ++ [flagOrDefault is.SigHashFlag], is.pubKey, secret].flatMap push) := ⟨_, rfl⟩
  rw [← htx'] at h4
  have hsame : SameButUnlocking tx tx' := by rw [htx']; exact withUnlocking_same _ _ _
  have hin' : tx'.Inputs[idx.toNat]? = some { inp with UnlockingScript := some ([sig ++ [flagOrDefault is.SigHashFlag], is.pubKey, secret].flatMap push) } := by
    rw [htx']; simp [withUnlocking, List.getElem?_mapIdx, hi]
  have hlens : ∀ d ∈ [sig ++ [flagOrDefault is.SigHashFlag], is.pubKey, secret], d.length < 2 ^ 32 := by
    intro d hd
    simp only [List.mem_cons, List.not_mem_nil, or_false] at hd
    rcases hd with rfl | rfl | rfl
    · have := hz.2 _ _ h3; simp; omega
    · exact hz.1
    · exact hlen
  refine ⟨tx', h4, hsame, ?_, ?_, ?_⟩
  · intro j hj
    rw [htx']
    simp only [withUnlocking, List.getElem?_mapIdx, if_neg hj, Option.map_id']
  · refine (C84_hashPuzzle_iff H verify secret _ (H.ripemd160_length _) sats o ho tx' idx.toNat).mpr
      ⟨_, _, [], sig ++ [flagOrDefault is.SigHashFlag], is.pubKey, secret, hin', rfl, (pushes_iff _ _ hlens).mpr rfl, rfl, rfl, ?_⟩
    rw [← signedBy_unlocking hsame]
    refine ⟨sig, _, rfl, hflag, ?_⟩
    obtain ⟨s, e1, e2⟩ := hsign (H.sha256 (H.sha256 (preimage (fun b => H.sha256 (H.sha256 b)) tx idx.toNat inp o.LockingScript (flagOrDefault is.SigHashFlag))))
    rw [h3] at e1
    injection e1 with e1
    subst e1
    rw [← hpa]
    exact e2
  · intro spare hcap
    have ht' := txids_same hsame ht
    have hp := C33_parse_serialise tx' ht' spare hcap
    have hx := isTxId_iff.mp (ht inp (List.mem_of_getElem? hi))
    have hid : inp.PreviousTxID.map lowerChar = hexEncode ((hexDecodeIgnore inp.PreviousTxID).reverse).reverse := by
      rw [List.reverse_reverse, hexEncode_decode hx.1]
    have hop : outpoint inp = (hexDecodeIgnore inp.PreviousTxID).reverse ++ leBytes 4 inp.PreviousTxOutIndex.toNat := rfl
    have hmem : (hexDecodeIgnore inp.PreviousTxID).reverse ++ leBytes 4 inp.PreviousTxOutIndex.toNat ∈ (wireTx tx').Inputs.map outpoint := by
      rw [wire_outpoints tx' ht', outpoints_same hsame, ← hop]
      exact List.mem_map_of_mem (List.mem_of_getElem? hi)
    obtain ⟨k, i, hk, he, hf⟩ := find_spending ((C35_accepts_iff _ spare hcap _).mp hp) (hexDecodeIgnore inp.PreviousTxID).reverse
      (by have := hexDecodeIgnore_length hx.1; have := hx.2; rw [List.length_reverse]; omega) inp.PreviousTxOutIndex hmem
    have hkk : k = idx.toNat := by
      have e1 : ((wireTx tx').Inputs.map outpoint)[k]? = some (outpoint inp) := by rw [List.getElem?_map, hk, Option.map_some, he, hop]
      rw [wire_outpoints tx' ht', outpoints_same hsame] at e1
      have e2 : (tx.Inputs.map outpoint)[idx.toNat]? = some (outpoint inp) := by rw [List.getElem?_map, hi, Option.map_some]
      exact (List.getElem?_inj (List.getElem?_eq_some_iff.mp e1).1 hd).mp (e1.trans e2.symm)
    subst hkk
    have hki : i = wireInput { inp with UnlockingScript := some ([sig ++ [flagOrDefault is.SigHashFlag], is.pubKey, secret].flatMap push) } := by
      simp only [wireTx, List.getElem?_map, hin', Option.map_some, Option.some.injEq] at hk
      exact hk.symm
    have hu : i.UnlockingScript = some ([sig ++ [flagOrDefault is.SigHashFlag], is.pubKey, secret].flatMap push) := by rw [hki]; rfl
    have henc : EncodeParts [sig ++ [flagOrDefault is.SigHashFlag], is.pubKey, secret] = .ok ([sig ++ [flagOrDefault is.SigHashFlag], is.pubKey, secret].flatMap push) := by
      rw [encodeParts_ok_iff]
      refine ⟨fun p hp => by have := hlens p hp; omega, ?_⟩
      simp [push_eq, bytesOf]
    have hsl := hsz.2 _ _ h3
    have hn1 : ¬ overflowLength (sig ++ [flagOrDefault is.SigHashFlag]).length := by unfold overflowLength; simp; omega
    have hn2 : ¬ overflowLength is.pubKey.length := by unfold overflowLength; omega
    unfold readSecret
    rw [hp, hid]
    simp only [Res.ok_bind, hf, hu]
    constructor
    · intro hn3
      rw [C07_empty_part _ _ henc (by
        intro p hp
        simp only [List.mem_cons, List.not_mem_nil, or_false] at hp
        rcases hp with rfl | rfl | rfl <;> assumption)]
      simp
    · intro h3
      have hsne : secret ≠ [] := by rintro rfl; unfold overflowLength at h3; simp at h3
      rw [(C07_roundtrip_iff _ _ (by
        intro p hp
        simp only [List.mem_cons, List.not_mem_nil, or_false] at hp
        rcases hp with rfl | rfl | rfl
        · simp
        · exact hpne
        · exact hsne) henc).2 ⟨secret, by simp, h3⟩]
      rfl

/-! ## A transaction that hides the secret -/

theorem accepted_other {H : HashFns} {verify : Bytes → Bytes → Bytes → Bool} {tx tx' : Transaction} (h : SameButUnlocking tx tx') (k : Nat) (hk : tx'.Inputs[k]? = tx.Inputs[k]?) (lock : Bytes) (sats : UInt64)
    (ha : Accepted H verify tx k lock sats) : Accepted H verify tx' k lock sats := by
  obtain ⟨inp, unl, us, ts, st, fin, h1, h2, h3, h4, h5, h6, h7, h8, h9⟩ := ha
  have hc : checkSigOf H verify tx' k inp lock sats = checkSigOf H verify tx k inp lock sats := by
    funext pub sf
    unfold checkSigOf
    cases sf.getLast? with
    | none => rfl
    | some flag => simp only [preimage_same h]
  exact ⟨inp, unl, us, ts, st, fin, hk.trans h1, h2, h3, h4, h5, h6, by rw [hc]; exact h7, by rw [hc]; exact h8, h9⟩

theorem flatMap_set_length {α : Type} (f : α → Bytes) (x : α) (c : Nat) : ∀ (l : List α) (k : Nat), (f x).length ≤ c → ((l.set k x).flatMap f).length ≤ (l.flatMap f).length + c
  | [], k, h => by simp
  | a :: l, 0, h => by simp; omega
  | a :: l, k + 1, h => by
    have := flatMap_set_length f x c l k h
    simp only [List.set_cons_succ, List.flatMap_cons, List.length_append]
    omega

theorem withUnlocking_length (tx : Transaction) (k : Nat) (i : Input) (hk : tx.Inputs[k]? = some i) (ht : IsTxId i.PreviousTxID) (s : Bytes) :
    (withUnlocking tx k s).ToBytes.length ≤ tx.ToBytes.length + (s.length + 49) := by
  rw [tx_toBytes_eq, tx_toBytes_eq, withUnlocking_set hk]
  simp only [show (withUnlocking tx k s).Outputs = tx.Outputs from rfl, show (withUnlocking tx k s).Version = tx.Version from rfl, show (withUnlocking tx k s).Locktime = tx.Locktime from rfl]
  have hx := isTxId_iff.mp ht
  have := hexDecodeIgnore_length hx.1
  have hx2 := hx.2
  have hin : (({ i with UnlockingScript := some s } : Input).ToBytes false).length ≤ s.length + 49 := by
    rw [input_toBytes_eq]
    simp only [Option.getD_some, List.length_append, List.length_reverse, putUint32_length]
    have := VarInt_length_le (UInt64.ofNat s.length)
    omega
  have := flatMap_set_length (fun j : Input => j.ToBytes false) _ _ tx.Inputs k hin
  simp only [List.length_append, List.length_set] at this ⊢
  omega

/-- C130, deviation: anyone who sees a transaction that takes the money can put a push of 65533 bytes, whatever they are, in front of what its unlocking script pushes. Nothing else of it changes, no signature
is needed, and a node accepts the new transaction in the place of the old one (if no output of another transaction with the same hash is unspent). The money is gone and the secret is there, but the buyer who reads
it panics. -/
theorem C130_violated (H : HashFns) (verify : Bytes → Bytes → Bytes → Bool) (secret h : Bytes) (hl : h.length = 20) (sats : UInt64) (o : Output)
    (ho : Output.NewHashPuzzle H secret (hexEncode h) sats = .ok o) (L L' : Ledger) (hash : Bytes) (h32 : hash.length = 32) (v : UInt32)
    (hL : L (hash ++ leBytes 4 v.toNat) = some ⟨o.Satoshis, o.LockingScript⟩) (b : Bytes)
    (hb : NodeAccepts H verify L b L') (hs : L' (hash ++ leBytes 4 v.toNat) = none) (junk : Bytes) (hj : junk.length = 65533) :
    ∃ (tx tx' : Transaction) (b' : Bytes), IsTx MinCompactSize tx b ∧ IsTx MinCompactSize tx' b' ∧ SameButUnlocking tx tx' ∧ b'.length ≤ 2 * b.length + 65585 ∧
      (b'.length ≤ maxTxBytes → (∀ n < 2 ^ 32, L (H.sha256 (H.sha256 b') ++ leBytes 4 n) = none) → ∃ L'', NodeAccepts H verify L b' L'' ∧ L'' (hash ++ leBytes 4 v.toNat) = none ∧
        ∀ spare : Bytes, b'.length + spare.length < 2 ^ 62 → readSecret b' spare (hexEncode hash.reverse) v = .panic) := by
  obtain ⟨h1, h2, tx, h3, h4, rfl⟩ := hb
  have h3' := isTx_mono h3
  obtain ⟨hw, hids⟩ := isTx_wire h3'
  obtain ⟨k, i, hk, he, hf⟩ := find_spending h3' hash h32 v (spent_named hs (by rw [hL]; simp))
  obtain ⟨c, hc, ha⟩ := h4.spends k i hk
  rw [he, hL] at hc
  injection hc with hc
  subst hc
  obtain ⟨inp, unl, before, item, pub, x, g1, g2, g3, g4, g5, g6⟩ := (C84_hashPuzzle_iff H verify secret h hl sats o ho tx k).mp ha
  rw [hk] at g1
  injection g1 with g1
  subst g1
  have hi := List.mem_of_getElem? hk
  obtain ⟨scr, hscr⟩ : ∃ scr, scr = (Token.pd2 junk).bytes ++ unl := ⟨_, rfl⟩
  have hscrl : scr.length = 65536 + unl.length := by rw [hscr]; simp [Token.bytes, Token.header, Token.data, hj]; omega
  obtain ⟨tx', htx'⟩ : ∃ tx', tx' = withUnlocking tx k scr := ⟨_, rfl⟩
  have hsame : SameButUnlocking tx tx' := by rw [htx']; exact withUnlocking_same _ _ _
  have hids' := txids_same hsame hids
  have hin' : tx'.Inputs[k]? = some { i with UnlockingScript := some scr } := by
    rw [htx']; simp [withUnlocking, List.getElem?_mapIdx, hk]
  have hoth : ∀ j, j ≠ k → tx'.Inputs[j]? = tx.Inputs[j]? := by
    intro j hjk
    rw [htx']
    simp only [withUnlocking, List.getElem?_mapIdx, if_neg hjk, Option.map_id']
  have hwt : wireTx tx' = tx' := by
    have hwi : ∀ j ∈ tx.Inputs, wireInput j = j := by
      have := congrArg Transaction.Inputs hw
      simp only [wireTx] at this
      intro j hj
      obtain ⟨n, hn⟩ := List.mem_iff_getElem?.mp hj
      have e := congrArg (·[n]?) this
      simp only [List.getElem?_map, hn, Option.map_some, Option.some.injEq] at e
      exact e
    unfold wireTx
    have : tx'.Inputs.map wireInput = tx'.Inputs := by
      conv_rhs => rw [← List.map_id tx'.Inputs]
      apply List.map_congr_left
      intro j hj
      obtain ⟨n, hn⟩ := List.mem_iff_getElem?.mp hj
      by_cases e : n = k
      · subst e
        rw [hin'] at hn
        injection hn with hn
        subst hn
        have := hwi i hi
        unfold wireInput at this ⊢
        have e1 := congrArg Input.PreviousTxID this
        have e2 := congrArg Input.PreviousTxSatoshis this
        have e3 := congrArg Input.PreviousTxScript this
        simp only at e1 e2 e3
        simp [e1, ← e2, ← e3]
      · rw [hoth n e] at hn
        exact hwi j (List.mem_of_getElem? hn)
    rw [this]
  have hunl := isTx_script_length h3' hi g2
  have hlen : tx'.ToBytes.length ≤ 2 * b.length + 65585 := by
    have := withUnlocking_length tx k i hk (hids i hi) scr
    rw [← htx', ← isTx_min_eq tx b h3] at this
    omega
  have hmx : maxTxBytes = 1000000000 := rfl
  have hist : IsTx MinCompactSize tx' tx'.ToBytes := by
    have := tx_toBytes_isTx tx' hids' (by omega)
    rwa [hwt] at this
  have hops := outpoints_same hsame
  refine ⟨tx, tx', tx'.ToBytes, h3, hist, hsame, hlen, fun hl' hfresh => ?_⟩
  have hpush : Pushes scr (junk :: before ++ [item, pub, x]) := by
    obtain ⟨us, e1, e2, e3⟩ := g3
    refine ⟨.pd2 junk :: us, by rw [hscr, e1]; simp [bytesOf], ?_, by simp [← e3, pushValue]⟩
    intro u hu
    rcases List.mem_cons.mp hu with rfl | hu
    · exact ⟨by simp [Token.Valid, hj], trivial, by simp⟩
    · exact e2 u hu
  have hacc : Accepted H verify tx' k o.LockingScript o.Satoshis :=
    (C84_hashPuzzle_iff H verify secret h hl sats o ho tx' k).mpr ⟨_, _, junk :: before, item, pub, x, hin', rfl, hpush, g4, g5, (signedBy_unlocking hsame k i _ _ _ _ _).mp g6⟩
  have hvi : valueIn L tx' = valueIn L tx := by rw [valueIn_eq, valueIn_eq, hops]
  have hvo : valueOut tx' = valueOut tx := by unfold valueOut; rw [hsame.2.2.1]
  refine ⟨_, ⟨hl', hfresh, tx', hist, ⟨?_, ?_, ?_, ?_, ?_, ?_, ?_⟩, rfl⟩, ?_, ?_⟩
  · intro e; rw [e] at hin'; simp at hin'
  · rw [← hsame.2.2.1]; exact h4.outputs
  · rw [hops]; exact h4.distinct
  · intro j i' hji
    by_cases e : j = k
    · subst e
      rw [hin'] at hji
      injection hji with hji
      subst hji
      exact ⟨_, by rw [show outpoint { i with UnlockingScript := some scr } = outpoint i from rfl, he, hL], hacc⟩
    · have hji' := hji
      rw [hoth j e] at hji'
      obtain ⟨c, hc, hca⟩ := h4.spends j i' hji'
      exact ⟨c, hc, accepted_other hsame j (hoth j e) _ _ hca⟩
  · rw [hvi, hvo]; exact h4.range
  · rw [hvi, hvo]; exact h4.funded
  · rcases h4.final with e | e
    · left; rw [← hsame.2.1]; exact e
    · right
      intro j hj
      obtain ⟨n, hn⟩ := List.mem_iff_getElem?.mp hj
      by_cases en : n = k
      · subst en
        rw [hin'] at hn
        injection hn with hn
        subst hn
        exact e i hi
      · rw [hoth n en] at hn
        exact e j (List.mem_of_getElem? hn)
  · unfold Ledger.after
    rcases hlk : (created (H.sha256 (H.sha256 tx'.ToBytes)) tx').lookup (hash ++ leBytes 4 v.toNat) with _ | c
    · simp only []
      rw [if_pos]
      rw [hops, ← he]
      exact List.mem_map_of_mem hi
    · exfalso
      obtain ⟨n, hlt, e⟩ := created_mem (mem_of_lookup _ hlk)
      have hn : n < 2 ^ 32 := by
        obtain ⟨ci, bi, co, bo, -, -, -, q4, q5⟩ := hist
        have := isSeq_length (fun o b (h : IsOutput MinCompactSize o b) => by
          obtain ⟨count, -, rfl⟩ := h
          simp only [List.length_append, leBytes_length]; omega) _ _ q4
        rw [q5] at hl'
        simp only [List.length_append] at hl'
        omega
      rw [e, hfresh n hn] at hL
      cases hL
  · intro spare hcap
    obtain ⟨k', i', hk', he', hf'⟩ := find_spending (isTx_mono hist) hash h32 v (by rw [hops, ← he]; exact List.mem_map_of_mem hi)
    have hkk : k' = k := by
      have hd := h4.distinct
      rw [← hops] at hd
      have e1 : (tx'.Inputs.map outpoint)[k']? = some (hash ++ leBytes 4 v.toNat) := by rw [List.getElem?_map, hk', Option.map_some, he']
      have e2 : (tx'.Inputs.map outpoint)[k]? = some (hash ++ leBytes 4 v.toNat) := by rw [List.getElem?_map, hin', Option.map_some, ← he]; rfl
      exact (List.getElem?_inj (List.getElem?_eq_some_iff.mp e1).1 hd).mp (e1.trans e2.symm)
    subst hkk
    rw [hin'] at hk'
    injection hk' with hk'
    unfold readSecret
    rw [(C35_accepts_iff _ spare hcap tx').mpr (isTx_mono hist)]
    simp only [Res.ok_bind, hf', ← hk']
    have hp : DecodeParts scr = .panic := by
      rw [hscr]
      have := decodeParts_bad_prefix [] (by simp) (by simp) (rest := (Token.pd2 junk).bytes ++ unl)
        (.inl ⟨leBytes 2 junk.length, junk ++ unl, by simp [Token.bytes, Token.header, Token.data], by simp, by rw [leNat_leBytes, hj]; decide⟩)
      simpa [bytesOf] using this
    rw [hp]
    rfl

/-! ## Examples -/

/-- A puzzle for the string "secret" and the key of `toySigner`. -/
def exPuzzle : Output := match Output.NewHashPuzzle toyH b!"secret" (hexEncode (toyH.ripemd160 (toyH.sha256 toySigner.pubKey))) 90 with | .ok o => o | _ => ⟨0, []⟩

theorem exPuzzle_eq : Output.NewHashPuzzle toyH b!"secret" (hexEncode (toyH.ripemd160 (toyH.sha256 toySigner.pubKey))) 90 = .ok exPuzzle := by
  obtain ⟨p, -, -, h2, -⟩ := C21_hashPuzzle toyH b!"secret" (toyH.ripemd160 (toyH.sha256 toySigner.pubKey)) 90 (toyH.ripemd160_length _)
  unfold exPuzzle
  rw [h2]

/-- A transaction that takes it. -/
def exTake : Transaction := { Version := 1, Locktime := 0, Inputs := [⟨List.replicate 64 49, 1, exPuzzle.Satoshis, some exPuzzle.LockingScript, none, 0xffffffff⟩], Outputs := [⟨80, [0x51]⟩] }

theorem exTake_sized : Sized exTake := by
  refine ⟨by decide, by decide, by decide, ?_⟩
  intro i hi s hs
  simp only [exTake, List.mem_singleton] at hi
  subst hi
  injection hs with hs
  subst hs
  decide +kernel

/-- Only the puzzle is unspent. -/
def exPuzzleLedger : Ledger := fun k => if k = List.replicate 32 0x11 ++ leBytes 4 1 then some ⟨exPuzzle.Satoshis, exPuzzle.LockingScript⟩ else none

/-- C130: the seller takes the money, a node accepts it, the buyer reads the secret. -/
theorem exSold : ∃ tx' L', claimPuzzle toyH toySigner b!"secret" 0 exTake = .ok tx' ∧ NodeAccepts toyH toyVerify exPuzzleLedger tx'.ToBytes L' ∧
    L' (List.replicate 32 0x11 ++ leBytes 4 1) = none ∧ readSecret tx'.ToBytes [] (List.replicate 64 49) 1 = .ok b!"secret" := by
  have hids : ∀ i ∈ exTake.Inputs, IsTxId i.PreviousTxID := by
    intro i hi
    simp only [exTake, List.mem_singleton] at hi
    subst hi
    decide +kernel
  obtain ⟨tx', h1, h2, h3, h4, h5⟩ := C130_claim toyH toyVerify toySigner toySigner_good ⟨by decide, by
    intro d s h
    simp only [toySigner, Res.ok.injEq] at h
    subst h
    simp⟩ b!"secret" (by decide) 90 exPuzzle exPuzzle_eq exTake exTake_sized hids (by simp [exTake]) 0 _ rfl rfl rfl
  have hrun : (match claimPuzzle toyH toySigner b!"secret" 0 exTake with
      | .ok t => decide (t.ToBytes.length ≤ maxTxBytes ∧ toyH.sha256 (toyH.sha256 t.ToBytes) ≠ List.replicate 32 0x11 ∧ t.Inputs.length = 1 ∧ t.Inputs.map outpoint = [List.replicate 32 0x11 ++ leBytes 4 1])
      | _ => false) = true := by decide +kernel
  rw [h1] at hrun
  simp only [decide_eq_true_eq] at hrun
  obtain ⟨r1, r2, r3, r4⟩ := hrun
  have hmx : maxTxBytes < 2 ^ 62 := by decide
  have ht' := txids_same h2 hids
  have hwo := wire_outpoints tx' ht'
  have hL : exPuzzleLedger (List.replicate 32 0x11 ++ leBytes 4 1) = some ⟨exPuzzle.Satoshis, exPuzzle.LockingScript⟩ := if_pos rfl
  have hsat : exPuzzle.Satoshis = 90 := by decide +kernel
  have hvi : valueIn exPuzzleLedger (wireTx tx') = 90 := by
    rw [valueIn_eq, hwo, r4]
    simp only [List.map_cons, List.map_nil, hL, hsat, List.sum_cons, List.sum_nil]
    rfl
  have hvo : valueOut (wireTx tx') = 80 := by
    show (tx'.Outputs.map (·.Satoshis.toNat)).sum = 80
    rw [← h2.2.2.1]; rfl
  have hnone : ∀ n, exPuzzleLedger (toyH.sha256 (toyH.sha256 tx'.ToBytes) ++ leBytes 4 n) = none := by
    intro n
    refine if_neg fun e => r2 (List.append_inj_left e ?_)
    rw [toyH.sha256_length]; rfl
  refine ⟨tx', _, h1, ⟨r1, fun n _ => hnone n, wireTx tx', tx_toBytes_isTx tx' ht' (by omega), ⟨?_, ?_, ?_, ?_, ?_, ?_, ?_⟩, rfl⟩, ?_, ?_⟩
  · intro e
    have := congrArg List.length e
    simp [wireTx, r3] at this
  · show tx'.Outputs ≠ []
    rw [← h2.2.2.1]; simp [exTake]
  · rw [hwo, r4]; simp
  · intro k inp hk
    have hk0 : k = 0 := by
      have := (List.getElem?_eq_some_iff.mp hk).1
      simp only [wireTx, List.length_map, r3] at this
      omega
    subst hk0
    have ho : outpoint inp = List.replicate 32 0x11 ++ leBytes 4 1 := by
      have : ((wireTx tx').Inputs.map outpoint)[0]? = some (outpoint inp) := by rw [List.getElem?_map, hk]; rfl
      rw [hwo, r4] at this
      simpa using this.symm
    exact ⟨⟨exPuzzle.Satoshis, exPuzzle.LockingScript⟩, by rw [ho, hL], accepted_wire toyH toyVerify tx' ht' 0 _ _ h4⟩
  · rw [hvi, hvo]; decide
  · rw [hvi, hvo]; decide
  · left; show tx'.Locktime = 0; rw [← h2.2.1]; rfl
  · unfold Ledger.after
    rcases hlk : (created (toyH.sha256 (toyH.sha256 tx'.ToBytes)) (wireTx tx')).lookup (List.replicate 32 0x11 ++ leBytes 4 1) with _ | c
    · simp only []
      rw [if_pos]
      rw [hwo, r4]; simp
    · exfalso
      obtain ⟨n, -, e⟩ := created_mem (mem_of_lookup _ hlk)
      exact r2 (List.append_inj_left e (by rw [toyH.sha256_length]; rfl)).symm
  · exact (h5 [] (by simp; omega)).1 (by unfold overflowLength; decide)

/-- C130: and the theorems for the buyer apply to it. -/
example : ∃ b L', NodeAccepts toyH toyVerify exPuzzleLedger b L' ∧ ∃ x, toyH.ripemd160 (toyH.sha256 x) = toyH.ripemd160 (toyH.sha256 b!"secret") ∧
    ((readSecret b [] (hexEncode (List.replicate 32 0x11).reverse) 1 = .panic ∧ 65536 ≤ b.length) ∨ ∃ p, readSecret b [] (hexEncode (List.replicate 32 0x11).reverse) 1 = .ok p ∧ (p = x ∨ OpcodeFor p x)) := by
  obtain ⟨tx', L', -, h2, h3, -⟩ := exSold
  exact ⟨_, L', h2, C130_reveals toyH toyVerify b!"secret" _ (toyH.ripemd160_length _) 90 exPuzzle exPuzzle_eq exPuzzleLedger L' (List.replicate 32 0x11) (by decide) 1 (if_pos rfl) _ []
    (by have := h2.1; have hm : maxTxBytes < 2 ^ 62 := by decide
        simp; omega) h2 h3⟩

/-- C130: the hypotheses of the deviation are met by it as well. -/
example : ∃ b L', NodeAccepts toyH toyVerify exPuzzleLedger b L' ∧ L' (List.replicate 32 0x11 ++ leBytes 4 (1 : UInt32).toNat) = none ∧ ∃ b' : Bytes, b'.length ≤ 2 * b.length + 65585 ∧
    (b'.length ≤ maxTxBytes → (∀ n < 2 ^ 32, exPuzzleLedger (toyH.sha256 (toyH.sha256 b') ++ leBytes 4 n) = none) → readSecret b' [] (hexEncode (List.replicate 32 0x11).reverse) 1 = .panic) := by
  obtain ⟨tx', L', -, h2, h3, -⟩ := exSold
  obtain ⟨t, t', b', -, -, -, g1, g2⟩ := C130_violated toyH toyVerify b!"secret" _ (toyH.ripemd160_length _) 90 exPuzzle exPuzzle_eq exPuzzleLedger L' (List.replicate 32 0x11) (by decide) 1 (if_pos rfl) _ h2 h3
    (List.replicate 65533 7) List.length_replicate
  refine ⟨_, L', h2, h3, b', g1, fun a1 a2 => ?_⟩
  obtain ⟨L'', -, -, h⟩ := g2 a1 a2
  have hm : maxTxBytes < 2 ^ 62 := by decide
  exact h [] (by simp; omega)

end Verif.Props
