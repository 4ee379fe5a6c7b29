import Verif.Props.Publish
import Verif.Props.Cipher
import Verif.Props.DecodeMemory
import Verif.Props.MemoryBlock
/-!
# C145: encrypted notes in the outputs of transactions
-/
namespace Verif.Props
open Verif Spec Transaction

/-! ## A writer and a reader, with the library -/

/-- Notes become data: each text is encrypted, with 16 random bytes of its own. -/
def encryptNotes (ciph : BlockCipher) (notes : List (Bytes × Bytes)) : Res (List Bytes) := notes.mapM fun n => Encrypt ciph (some n.1) n.2

/-- A step of the writer: a call of a payment as it is, and for notes the ciphertexts as data. -/
def noteStep (ciph : BlockCipher) : Call ⊕ List (Bytes × Bytes) → Res (Call ⊕ List Bytes)
  | .inl c => .ok (.inl c)
  | .inr ns => do
    let d ← encryptNotes ciph ns
    pure (.inr d)

/-- The calls of the writer: those of a payment as they are, and for notes an OP_RETURN output with the ciphertexts. -/
def noteCalls (ciph : BlockCipher) (steps : List (Call ⊕ List (Bytes × Bytes))) : Res (List Call) := do
  let ds ← steps.mapM (noteStep ciph)
  publishCalls ds

/-- What the reader makes of the parts of a data script: it decrypts all behind OP_RETURN. -/
def decryptParts (ciph : BlockCipher) (parts : List Bytes) : List (Res Bytes) := (parts.drop 2).map fun c => (Decrypt ciph c).1

/-- The reader of a transaction in wire form. -/
def readNotes (ciph : BlockCipher) (b spare : Bytes) : Res (List (List (Res Bytes))) := do
  let ds ← readData b spare
  pure (ds.map (decryptParts ciph))

/-- A step of a writer: `From` and `PayTo` as in any payment, or notes whose ciphertexts have lengths that can be read back. -/
def NoteStep (L : Ledger) (hashes : List Bytes) : Call ⊕ List (Bytes × Bytes) → Prop
  | .inl c => PaymentCall L hashes c ∧ ∀ o, c ≠ .addOutput o
  | .inr ns => ∀ n ∈ ns, n.1.length = 16 ∧ 16 + 4 * ((n.2.length + 2) / 3) < 2 ^ 32 ∧ ¬ overflowLength (16 + 4 * ((n.2.length + 2) / 3))

/-- Encrypting notes does not fail, and the ciphertexts have the expected lengths and contents. -/
theorem encryptNotes_ok (ciph : BlockCipher) (h16 : ciph.BlockSize = 16) : ∀ ns : List (Bytes × Bytes), (∀ n ∈ ns, n.1.length = 16) →
    ∃ d, encryptNotes ciph ns = .ok d ∧ List.Forall₂ (fun n c => c.length = 16 + 4 * ((n.2.length + 2) / 3) ∧ (Decrypt ciph c).1 = .ok n.2) ns d
  | [], _ => ⟨[], rfl, .nil⟩
  | n :: ns, h => by
    obtain ⟨c, h1, -, h3, h4⟩ := C61_roundtrip ciph h16 n.1 n.2 (h n (by simp))
    obtain ⟨d, k1, k2⟩ := encryptNotes_ok ciph h16 ns (fun x hx => h x (by simp [hx]))
    refine ⟨c :: d, ?_, .cons ⟨h3, h4⟩ k2⟩
    unfold encryptNotes at k1 ⊢
    rw [List.mapM_cons, h1, Res.ok_bind, k1, Res.ok_bind]
    rfl

theorem decrypt_published (ciph : BlockCipher) {ns : List (Bytes × Bytes)} {d : List Bytes}
    (h : List.Forall₂ (fun n c => c.length = 16 + 4 * ((n.2.length + 2) / 3) ∧ (Decrypt ciph c).1 = .ok n.2) ns d) :
    decryptParts ciph (publishedParts d) = ns.map fun n => .ok n.2 := by
  simp only [decryptParts, publishedParts, List.drop_succ_cons, List.drop_zero, List.map_map]
  induction h with
  | nil => rfl
  | @cons n c ns d hc _ ih =>
    have hne : c ≠ [] := by
      intro e
      have := hc.1
      rw [e, List.length_nil] at this
      omega
    simp only [List.map_cons, ih, Function.comp_apply, if_neg hne, hc.2]

/-- C145: whatever notes are written, in any number of outputs, between the calls of a payment, nothing fails, a node accepts the signed transaction exactly if the payment can be made (and its bytes are not too many and no other
transaction has the same hash), and whoever has the cipher reads exactly the notes, in order. -/
theorem C145_notes (ciph : BlockCipher) (h16 : ciph.BlockSize = 16) (H : HashFns) (verify : Bytes → Bytes → Bytes → Bool) (signers : List InternalSigner) (hg : ∀ is ∈ signers, GoodSigner verify is)
    (L : Ledger) (steps : List (Call ⊕ List (Bytes × Bytes))) (hs : ∀ s ∈ steps, NoteStep L (keyHashes H signers) s) (hlen : steps.length < 2 ^ 31)
    (hsz : ∀ ns, Sum.inr ns ∈ steps → ∀ d o, encryptNotes ciph ns = .ok d → Output.NewOpReturnParts d = .ok o → o.LockingScript.length < 2 ^ 64) :
    ∃ calls tx tx', noteCalls ciph steps = .ok calls ∧ applyCalls Transaction.New calls = .ok (tx, List.replicate calls.length true) ∧ signWithAll H signers tx = .ok tx' ∧
      ((∃ L', NodeAccepts H verify L tx'.ToBytes L') ↔
        Payable calls ∧ tx'.ToBytes.length ≤ maxTxBytes ∧ ∀ n < 2 ^ 32, L (H.sha256 (H.sha256 tx'.ToBytes) ++ leBytes 4 n) = none) ∧
      ∀ spare : Bytes, tx'.ToBytes.length + spare.length < 2 ^ 62 →
        readNotes ciph tx'.ToBytes spare = .ok (steps.filterMap fun | .inl _ => none | .inr ns => some (ns.map fun n => .ok n.2)) := by
  have key : ∀ steps : List (Call ⊕ List (Bytes × Bytes)), (∀ s ∈ steps, NoteStep L (keyHashes H signers) s) →
      (∀ ns, Sum.inr ns ∈ steps → ∀ d o, encryptNotes ciph ns = .ok d → Output.NewOpReturnParts d = .ok o → o.LockingScript.length < 2 ^ 64) →
      ∃ ds : List (Call ⊕ List Bytes), noteCalls ciph steps = publishCalls ds ∧ ds.length = steps.length ∧ (∀ s ∈ ds, PublishStep L (keyHashes H signers) s) ∧
        (∀ d, Sum.inr d ∈ ds → ∀ o, Output.NewOpReturnParts d = .ok o → o.LockingScript.length < 2 ^ 64) ∧
        (ds.filterMap fun | .inl _ => none | .inr d => some (publishedParts d)).map (decryptParts ciph) =
          steps.filterMap fun | .inl _ => none | .inr ns => some (ns.map fun n => .ok n.2) := by
    intro steps hs hsz
    suffices h : ∃ ds : List (Call ⊕ List Bytes), steps.mapM (noteStep ciph) = .ok ds ∧ ds.length = steps.length ∧ (∀ s ∈ ds, PublishStep L (keyHashes H signers) s) ∧
        (∀ d, Sum.inr d ∈ ds → ∀ o, Output.NewOpReturnParts d = .ok o → o.LockingScript.length < 2 ^ 64) ∧
        (ds.filterMap fun | .inl _ => none | .inr d => some (publishedParts d)).map (decryptParts ciph) =
          steps.filterMap fun | .inl _ => none | .inr ns => some (ns.map fun n => .ok n.2) by
      obtain ⟨ds, h1, h2⟩ := h
      exact ⟨ds, by unfold noteCalls; rw [h1, Res.ok_bind], h2⟩
    induction steps with
    | nil => exact ⟨[], rfl, rfl, by simp, by simp, rfl⟩
    | cons s ss ih =>
      obtain ⟨ds, k1, k2, k3, k4, k5⟩ := ih (fun x hx => hs x (by simp [hx])) (fun ns hn => hsz ns (by simp [hn]))
      cases s with
      | inl c =>
        refine ⟨.inl c :: ds, ?_, by simp [k2], ?_, ?_, ?_⟩
        · rw [List.mapM_cons, noteStep, Res.ok_bind, k1]; rfl
        · intro x hx
          rcases List.mem_cons.1 hx with rfl | hx
          · exact hs (.inl c) (by simp)
          · exact k3 x hx
        · intro d hd
          exact k4 d (by simpa using hd)
        · simpa using k5
      | inr ns =>
        have hn := hs (.inr ns) (by simp)
        obtain ⟨d, e1, e2⟩ := encryptNotes_ok ciph h16 ns (fun n h => (hn n h).1)
        refine ⟨.inr d :: ds, ?_, by simp [k2], ?_, ?_, ?_⟩
        · rw [List.mapM_cons, noteStep, e1, Res.ok_bind]
          show ((pure (Sum.inr d) : Res (Call ⊕ List Bytes)) >>= _) = _
          rw [show (pure (Sum.inr d) : Res (Call ⊕ List Bytes)) = .ok (.inr d) from rfl, Res.ok_bind, k1]
          rfl
        · intro x hx
          rcases List.mem_cons.1 hx with rfl | hx
          · intro p hp
            obtain ⟨i, hi⟩ := List.mem_iff_getElem?.1 hp
            have hl := e2.length_eq
            have hlt := (List.getElem?_eq_some_iff.1 hi).1
            have hget := (List.getElem?_eq_some_iff.1 hi).2
            have := e2.get (i := i) (by omega) hlt
            simp only [List.get_eq_getElem, hget] at this
            rw [this.1]
            exact (hn _ (List.getElem_mem (by omega))).2
          · exact k3 x hx
        · intro d' hd
          rcases List.mem_cons.1 hd with e | hd
          · cases e
            exact fun o ho => hsz ns (by simp) d o e1 ho
          · exact k4 d' hd
        · simp only [List.filterMap_cons, List.map_cons, k5, decrypt_published ciph e2]
  obtain ⟨ds, k1, k2, k3, k4, k5⟩ := key steps hs hsz
  obtain ⟨calls, tx, tx', g1, g2, g3, g4, g5⟩ := C131_publish H verify signers hg L ds k3 (by omega) k4
  refine ⟨calls, tx, tx', by rw [k1, g1], g2, g3, g4, fun spare hc => ?_⟩
  unfold readNotes
  rw [g5 spare hc, Res.ok_bind]
  exact congrArg Res.ok k5

/-- C145 (safety): a reader of any transaction dies exactly where a reader of data does; no data, whoever wrote them, make the decryption panic. -/
theorem C145_safe (ciph : BlockCipher) (h16 : ciph.BlockSize = 16) (tx : Transaction) (b spare : Bytes) (hcap : b.length + spare.length < 2 ^ 62) (hb : IsTx CompactSize tx b) :
    (readNotes ciph b spare = .panic ↔ ∃ o ∈ tx.Outputs, Harmful o.LockingScript) ∧
    ∀ rs, readNotes ciph b spare = .ok rs → ∀ r ∈ rs, ∀ x ∈ r, x ≠ .panic := by
  obtain ⟨h1, h2⟩ := C131_read tx b spare hcap hb
  refine ⟨?_, ?_⟩
  · rw [← h1]
    unfold readNotes
    cases readData b spare <;> simp [pure, bind, Res.bind]
  · intro rs h r hr x hx
    unfold readNotes at h
    cases hd : readData b spare with
    | ok ds =>
      rw [hd] at h
      cases h
      obtain ⟨ps, -, rfl⟩ := List.mem_map.1 hr
      obtain ⟨c, -, rfl⟩ := List.mem_map.1 hx
      exact (C62_total ciph h16 c).1
    | err e => rw [hd] at h; cases h
    | panic => rw [hd] at h; cases h

/-- C145 (violated: forged notes): who knows the text of a published note of at most 12 bytes can publish, without the cipher, what the reader reads as a note with any other text of that length. -/
theorem C145_forged_violated (ciph : BlockCipher) (h16 : ciph.BlockSize = 16) (iv text other c p q : Bytes) (hiv : iv.length = 16) (hl : text.length = other.length) (h12 : text.length ≤ 12)
    (hp : IsBase64 text p) (hq : IsBase64 other q) (h : Encrypt ciph (some iv) text = .ok c) :
    decryptParts ciph (publishedParts [c]) = [.ok text] ∧ decryptParts ciph (publishedParts [c.take 16 ++ tamper (c.drop 16) p q]) = [.ok other] := by
  obtain ⟨c', e1, e2, e3, e4⟩ := C61_roundtrip ciph h16 iv text hiv
  rw [h] at e1
  cases e1
  have hf := C97_forgery ciph h16 iv text other c p q hiv hl h12 hp hq h
  have hne : ∀ x : Bytes, c.take 16 ++ x ≠ [] := by
    intro x e
    have := congrArg List.length e
    rw [e2] at this
    simp [hiv] at this
  have hc : c ≠ [] := by
    rintro rfl
    rw [List.length_nil] at e3
    omega
  refine ⟨by simp [decryptParts, publishedParts, hc, e4], ?_⟩
  simp only [decryptParts, publishedParts, List.map_cons, List.map_nil, List.drop_succ_cons, List.drop_zero, if_neg (hne _)]
  rw [e2, hf]

/-- C145 (violated: reading reveals): the parts of a script are views of it, and decryption works in place. After a note has been read, the script, and so the transaction that the reader holds, contains the base64 text of the
note, in the clear, where the ciphertext was. -/
theorem C145_reveals_violated (ciph : BlockCipher) (h16 : ciph.BlockSize = 16) (m : Mem) (b : Hdr) (w : b.WF m) (pre : List Token) (t : Token) (rest iv text q : Bytes) (hv : ∀ u ∈ pre ++ [t], u.Valid)
    (hd : ∀ u ∈ pre ++ [t], Decodable u) (hb : b.data m = bytesOf pre ++ t.bytes ++ rest) (hp : t.IsPush) (hiv : iv.length = 16) (he : Encrypt ciph (some iv) text = .ok t.data) (hq : IsBase64 text q) :
    ∃ p, (DecodePartsH m b).2.1[pre.length]? = some p ∧ (DecryptH ciph (DecodePartsH m b).1 p).1 = .ok text ∧
      b.data (DecryptH ciph (DecodePartsH m b).1 p).2 = bytesOf pre ++ (t.header ++ (iv ++ q)) ++ rest := by
  obtain ⟨p, ops, h1, h2, h3, -⟩ := part_header w pre t rest hv hd hb
  have hold := (C82_values w).2
  set m1 := (DecodePartsH m b).1 with hm1
  have w1 : b.WF m1 := w.mono (by rw [h2]; simp) (by rw [hold _ w.arr])
  have hb1 : b.data m1 = bytesOf pre ++ t.bytes ++ rest := by rw [Hdr.data_congr (hold _ w.arr), hb]
  have hlen := w1.len_data
  rw [hb1] at hlen
  simp only [List.length_append, Token.bytes] at hlen
  obtain rfl := h3 hp
  have hr : ∀ m' : Mem, (b.window ((bytesOf pre).length + t.header.length) t.data.length).data m' = ((b.data m').drop ((bytesOf pre).length + t.header.length)).take t.data.length :=
    fun m' => Hdr.data_window _ _ (by omega)
  have hpd : (b.window ((bytesOf pre).length + t.header.length) t.data.length).data m1 = t.data := by
    rw [hr, hb1, Token.bytes]
    simp only [List.append_assoc]
    rw [← List.append_assoc (bytesOf pre), List.drop_left' (by simp), List.take_left' rfl]
  obtain ⟨d1, d2, d3⟩ := C62_memory_exact ciph h16 m1 (b.window ((bytesOf pre).length + t.header.length) t.data.length) (w1.window (by omega))
  obtain ⟨c', e1, e2, e3, e4⟩ := C61_roundtrip ciph h16 iv text hiv
  rw [he] at e1
  have e1' : t.data = c' := by injection e1
  subst e1'
  have d2' := (C62_memory ciph h16).2.2 iv text t.data hiv he
  have hu : ∀ t p q, IsBase64 t p → IsBase64 t q → p = q := by
    intro t p q h
    induction h generalizing q with
    | nil => intro h; cases h; rfl
    | one a => intro h; cases h; rfl
    | two a b => intro h; cases h; rfl
    | three a b c _ ih => intro h; cases h with | three _ _ _ h => rw [ih _ h]
  have hq' : q = base64Encode text := hu _ _ _ hq (base64_spec text)
  refine ⟨_, h1, by rw [d1, hpd, e4], ?_⟩
  rw [hpd, d2'] at d2
  set m2 := (DecryptH ciph m1 (b.window ((bytesOf pre).length + t.header.length) t.data.length)).2 with hm2
  have hfirst := d3 (b.window 0 ((bytesOf pre).length + t.header.length)) (w1.window (by omega)) (.inr (.inl (by simp only [Hdr.window]; omega)))
  have hlast := d3 (b.window ((bytesOf pre).length + t.header.length + t.data.length) rest.length) (w1.window (by omega)) (.inr (.inr (by simp only [Hdr.window]; omega)))
  rw [Hdr.data_window _ _ (by omega), Hdr.data_window _ _ (by omega)] at hfirst hlast
  rw [hr] at d2
  rw [hq', ← d2]
  have l2 : (b.data m2).length ≤ b.len := by
    simp only [Hdr.data, Hdr.view, List.length_take]
    exact Nat.min_le_left _ _
  have e1 : bytesOf pre ++ t.header = (b.data m2).take ((bytesOf pre).length + t.header.length) := by
    simp only [List.drop_zero] at hfirst
    rw [hfirst, hb1, Token.bytes, ← List.append_assoc, List.append_assoc (bytesOf pre ++ t.header), List.take_left' (by simp)]
  have e2 : rest = (b.data m2).drop ((bytesOf pre).length + t.header.length + t.data.length) := by
    have h0 : ((b.data m1).drop ((bytesOf pre).length + t.header.length + t.data.length)).take rest.length = rest := by
      rw [hb1, Token.bytes, ← List.append_assoc, List.drop_left' (by simp; omega), List.take_length]
    rw [h0] at hlast
    rw [← hlast, List.take_of_length_le (by simp; omega)]
  rw [← List.append_assoc, e1]
  conv_rhs => rw [e2]
  generalize (bytesOf pre).length + t.header.length = k
  rw [List.append_assoc, ← List.drop_drop, List.take_append_drop, List.take_append_drop]

/-! ## Cases -/

/-- A coin is spent, the notes "hi" and "pay 300" are published, and the rest is paid to an address. -/
def exNotes : List (Call ⊕ List (Bytes × Bytes)) :=
  [.inl (.fromUtxo exCoin.txid exCoin.vout exCoin.scriptHex exCoin.sats), .inr [(List.replicate 16 9, b!"hi"), (List.replicate 16 5, b!"pay 300")],
    .inl (.payTo (Address.NewFromPublicKeyHash toyH (List.replicate 20 7) true).AddressString 80)]

/-- The locking script of the output with the notes. -/
def exNoteScript : Bytes := [0x00, 0x6a, 20] ++ List.replicate 16 9 ++ [55, 16, 51, 100, 28] ++ List.replicate 16 5 ++ [49, 20, 18, 96, 31, 19, 21, 46, 23, 26, 97, 96]

/-- The steps are possible and the payment can be made. -/
example : (∀ s ∈ exNotes, NoteStep exLedger (keyHashes toyH [toySigner]) s) ∧ ∃ calls, noteCalls toyCipher exNotes = .ok calls ∧ Payable calls := by
  refine ⟨?_, ?_⟩
  · intro s hs
    simp only [exNotes, List.mem_cons, List.not_mem_nil, or_false] at hs
    rcases hs with rfl | rfl | rfl
    · exact ⟨⟨by unfold IsTxId; decide +kernel, _, List.mem_map.mpr ⟨toySigner, by simp, rfl⟩, (isHexString_iff _).mpr (isHex_encode _), hexDecodeIgnore_encode _, by simp [exLedger, exCoin, WalletCoin.key]⟩, by simp⟩
    · intro n hn
      simp only [List.mem_cons, List.not_mem_nil, or_false] at hn
      rcases hn with rfl | rfl <;> exact ⟨by decide, by decide, by unfold overflowLength; decide⟩
    · exact ⟨show IsAddressLike _ by decide +kernel, by simp⟩
  · have e1 : encryptNotes toyCipher [(List.replicate 16 9, b!"hi"), (List.replicate 16 5, b!"pay 300")] =
        .ok [List.replicate 16 9 ++ [55, 16, 51, 100], List.replicate 16 5 ++ [49, 20, 18, 96, 31, 19, 21, 46, 23, 26, 97, 96]] := by decide +kernel
    have e2 : Output.NewOpReturnParts [List.replicate 16 9 ++ [55, 16, 51, 100], List.replicate 16 5 ++ [49, 20, 18, 96, 31, 19, 21, 46, 23, 26, 97, 96]] = .ok ⟨0, exNoteScript⟩ := by decide +kernel
    refine ⟨[.fromUtxo exCoin.txid exCoin.vout exCoin.scriptHex exCoin.sats, .addOutput ⟨0, exNoteScript⟩, .payTo (Address.NewFromPublicKeyHash toyH (List.replicate 20 7) true).AddressString 80], ?_, ?_⟩
    · have e3 : exNotes.mapM (noteStep toyCipher) = .ok [.inl (.fromUtxo exCoin.txid exCoin.vout exCoin.scriptHex exCoin.sats),
          .inr [List.replicate 16 9 ++ [55, 16, 51, 100], List.replicate 16 5 ++ [49, 20, 18, 96, 31, 19, 21, 46, 23, 26, 97, 96]],
          .inl (.payTo (Address.NewFromPublicKeyHash toyH (List.replicate 20 7) true).AddressString 80)] := by
        simp only [exNotes, List.mapM_cons, noteStep, e1]
        rfl
      unfold noteCalls
      rw [e3, Res.ok_bind]
      simp only [publishCalls, List.mapM_cons, e2]
      rfl
    · exact ⟨⟨_, List.mem_cons_self, by simp [Call.spent]⟩, ⟨.addOutput ⟨0, exNoteScript⟩, by simp, by simp [Call.outs]⟩, by simp [Call.spent], by decide, by decide⟩

/-- A script with one note, in an array of its own: after the note has been read, the script holds its base64 text. -/
example : ∃ c, Encrypt toyCipher (some (List.replicate 16 9)) b!"hi" = .ok c ∧
    let m : Mem := [[0x00, 0x6a, 20] ++ c]
    let r := DecodePartsH m ⟨0, 0, 23, 23⟩
    (r.2.1[2]?.map fun p => (DecryptH toyCipher r.1 p).1) = some (.ok b!"hi") ∧
      (r.2.1[2]?.map fun p => (DecryptH toyCipher r.1 p).2.bytes 0) = some ([0x00, 0x6a, 20] ++ List.replicate 16 9 ++ b!"aGk=") := by
  refine ⟨_, rfl, ?_⟩
  decide +kernel

end Verif.Props
