import Verif.Props.Handover
import Verif.Props.Spendable
/-!
# C112: what changes a transaction's id
-/
namespace Verif.Props
open Verif Spec Transaction

/-- Two different byte strings with the same double SHA256. -/
def IdCollision (H : HashFns) (a b : Bytes) : Prop := a ≠ b ∧ H.sha256 (H.sha256 a) = H.sha256 (H.sha256 b)

theorem txid_eq_iff (H : HashFns) (tx tx' : Transaction) : tx.GetTxID H = tx'.GetTxID H ↔ H.sha256 (H.sha256 tx.ToBytes) = H.sha256 (H.sha256 tx'.ToBytes) := by
  rw [(C38_txid_form H tx).1, (C38_txid_form H tx').1]
  constructor
  · intro h; exact List.reverse_injective (hexEncode_inj h)
  · intro h; rw [h]

/-- Replacing an unlocking script by other bytes changes the serialisation. -/
theorem toBytes_withUnlocking (tx : Transaction) (ht : ∀ i ∈ tx.Inputs, IsTxId i.PreviousTxID) (hsz : tx.ToBytes.length < 2 ^ 62) (k : Nat) (inp : Input)
    (hi : tx.Inputs[k]? = some inp) (s : Bytes) : (withUnlocking tx k s).ToBytes = tx.ToBytes ↔ s = inp.UnlockingScript.getD [] := by
  rw [eq_comm, C38_serialise_injective tx _ ht (txids_same (withUnlocking_same tx k s) ht) hsz]
  constructor
  · intro h
    have h1 := congrArg (fun t : Transaction => (t.Inputs[k]?).map (·.UnlockingScript)) h
    simp [wireTx, withUnlocking, hi, wireInput] at h1
    exact h1.symm
  · intro h
    simp only [wireTx, withUnlocking, Transaction.mk.injEq, true_and, and_true]
    apply List.ext_getElem?
    intro j
    simp only [List.getElem?_map, List.getElem?_mapIdx]
    rcases hj : tx.Inputs[j]? with _ | i
    · rfl
    · simp only [Option.map_some, Option.some.injEq]
      by_cases e : j = k
      · subst e
        rw [hi] at hj; injection hj with hj; subst hj
        rw [if_pos rfl, h]
        simp [wireInput]
      · rw [if_neg e]

/-- C112 (a): setting an unlocking script keeps the id if the input already has these bytes; otherwise the serialisation changes, and so does the id unless the two
serialisations are a collision of double SHA256. -/
theorem C112_apply (H : HashFns) (tx tx' : Transaction) (ht : ∀ i ∈ tx.Inputs, IsTxId i.PreviousTxID) (hsz : tx.ToBytes.length < 2 ^ 62) (idx : UInt32) (inp : Input)
    (hi : tx.Inputs[idx.toNat]? = some inp) (s : Bytes) (h : tx.ApplyUnlockingScript idx s = .ok tx') :
    (inp.UnlockingScript.getD [] = s → tx'.GetTxID H = tx.GetTxID H) ∧
    (inp.UnlockingScript.getD [] ≠ s → tx'.ToBytes ≠ tx.ToBytes ∧ (tx'.GetTxID H ≠ tx.GetTxID H ∨ IdCollision H tx'.ToBytes tx.ToBytes)) := by
  have hlt : idx.toNat < tx.Inputs.length := (List.getElem?_eq_some_iff.mp hi).1
  rw [applyUnlocking_eq s hlt] at h
  injection h with h
  subst h
  have key := toBytes_withUnlocking tx ht hsz idx.toNat inp hi s
  constructor
  · intro e
    rw [txid_eq_iff, key.mpr e.symm]
  · intro e
    have hne : (withUnlocking tx idx.toNat s).ToBytes ≠ tx.ToBytes := fun h => e (key.mp h).symm
    refine ⟨hne, ?_⟩
    by_cases hc : (withUnlocking tx idx.toNat s).GetTxID H = tx.GetTxID H
    · right; exact ⟨hne, (txid_eq_iff _ _ _).mp hc⟩
    · left; exact hc

/-- C112 (b): signing an input that had no (or an empty) unlocking script changes the id. -/
theorem C112_sign (H : HashFns) (is : InternalSigner) (hz : SignerSized is) (tx tx' : Transaction) (hs : Sized tx) (ht : ∀ i ∈ tx.Inputs, IsTxId i.PreviousTxID)
    (hsz : tx.ToBytes.length < 2 ^ 62) (idx : UInt32) (inp : Input) (hi : tx.Inputs[idx.toNat]? = some inp) (hu : inp.UnlockingScript.getD [] = [])
    (h : is.Sign H idx tx = .ok tx') : tx'.ToBytes ≠ tx.ToBytes ∧ (tx'.GetTxID H ≠ tx.GetTxID H ∨ IdCollision H tx'.ToBytes tx.ToBytes) := by
  obtain ⟨i, code, sig, hi', _, _, _, rfl⟩ := C47_sign_ok H is hz tx hs idx tx' h
  have hlt : idx.toNat < tx.Inputs.length := (List.getElem?_eq_some_iff.mp hi).1
  refine (C112_apply H tx _ ht hsz idx inp hi _ (applyUnlocking_eq _ hlt)).2 ?_
  rw [hu]
  intro e
  have := congrArg List.length e
  unfold push at this
  simp only [List.length_nil, List.length_append] at this
  split_ifs at this <;> simp at this

/-- C112 (c): a transaction that spends an output of `tx` and was built (with `From`) from the id `tx` had before an input was signed does not point at the signed
transaction: its outpoint names another hash. -/
theorem C112_child (H : HashFns) (is : InternalSigner) (hz : SignerSized is) (tx tx' child child' : Transaction) (hs : Sized tx) (ht : ∀ i ∈ tx.Inputs, IsTxId i.PreviousTxID)
    (hsz : tx.ToBytes.length < 2 ^ 62) (idx : UInt32) (inp : Input) (hi : tx.Inputs[idx.toNat]? = some inp) (hu : inp.UnlockingScript.getD [] = [])
    (h : is.Sign H idx tx = .ok tx') (n : UInt32) (scriptHex : Bytes) (sats : UInt64)
    (hc : child.From (tx.GetTxID H) n scriptHex sats = .ok child') :
    ∃ new, child'.Inputs = child.Inputs ++ [new] ∧ outpoint new = H.sha256 (H.sha256 tx.ToBytes) ++ leBytes 4 n.toNat ∧
      (outpoint new ≠ H.sha256 (H.sha256 tx'.ToBytes) ++ leBytes 4 n.toNat ∨ IdCollision H tx'.ToBytes tx.ToBytes) := by
  obtain ⟨hne, hid⟩ := C112_sign H is hz tx tx' hs ht hsz idx inp hi hu h
  unfold From at hc
  obtain ⟨pts, hp, hc⟩ := Res.bind_eq_ok.mp hc
  injection hc with hc
  subst hc
  refine ⟨_, rfl, ?_, ?_⟩
  · simp only [outpoint, (C38_txid_form H tx).1, hexDecodeIgnore_encode, List.reverse_reverse]
  · rcases hid with hid | hid
    · left
      simp only [outpoint, (C38_txid_form H tx).1, hexDecodeIgnore_encode, List.reverse_reverse]
      intro e
      rw [List.append_cancel_right_eq] at e
      exact hid ((txid_eq_iff _ _ _).mpr e.symm)
    · right; exact hid

/-- Acceptance of an input depends on the other inputs' unlocking scripts in no way. -/
theorem accepted_same (H : HashFns) (verify : Bytes → Bytes → Bytes → Bool) {tx tx' : Transaction} (h : SameButUnlocking tx tx') (k : Nat) (lock : Bytes) (sats : UInt64)
    (hk : tx.Inputs[k]? = tx'.Inputs[k]?) (ha : Accepted H verify tx k lock sats) : Accepted H verify tx' k lock sats := by
  obtain ⟨inp, unl, us, ts, st, fin, h1, h2, h3, h4, h5, h6, h7, h8, h9⟩ := ha
  have e : checkSigOf H verify tx k inp lock sats = checkSigOf H verify tx' k inp lock sats := by
    unfold checkSigOf
    simp only [preimage_same h]
  exact ⟨inp, unl, us, ts, st, fin, by rw [← hk]; exact h1, h2, h3, h4, h5, h6, by rw [← e]; exact h7, by rw [← e]; exact h8, h9⟩

/-- C112 (d): no key is needed to change the id of a signed transaction. For every transaction with an input that may spend a P2PKH output there are other unlocking
scripts for that input (any pushes put in front) with which it may still spend it; every other input stays as acceptable as it was, and the id is another one unless
double SHA256 collides. -/
theorem C112_third_party (H : HashFns) (verify : Bytes → Bytes → Bytes → Bool) (tx : Transaction) (ht : ∀ i ∈ tx.Inputs, IsTxId i.PreviousTxID)
    (hsz : tx.ToBytes.length < 2 ^ 62) (k : Nat) (hash : Bytes) (hl : hash.length = 20) (sats : UInt64) (ha : Accepted H verify tx k (p2pkh hash) sats)
    (extra : Bytes) (hx0 : extra ≠ []) (hx : extra.length ≤ 75) :
    ∃ inp unl tx', tx.Inputs[k]? = some inp ∧ inp.UnlockingScript = some unl ∧ tx' = withUnlocking tx k (push extra ++ unl) ∧
      Accepted H verify tx' k (p2pkh hash) sats ∧
      (∀ j lock v, j ≠ k → (Accepted H verify tx' j lock v ↔ Accepted H verify tx j lock v)) ∧
      tx'.ToBytes ≠ tx.ToBytes ∧ (tx'.GetTxID H ≠ tx.GetTxID H ∨ IdCollision H tx'.ToBytes tx.ToBytes) := by
  obtain ⟨inp, unl, before, item, pub, hi, hu, ⟨us, hus, hv, hit⟩, hh, hsig⟩ := (C83_p2pkh_iff H verify tx k hash hl sats).mp ha
  have hsame := withUnlocking_same tx k (push extra ++ unl)
  refine ⟨inp, unl, _, hi, hu, rfl, ?_, ?_, ?_⟩
  · rw [C83_p2pkh_iff H verify _ k hash hl sats]
    refine ⟨{ inp with UnlockingScript := some (push extra ++ unl) }, push extra ++ unl, extra :: before, item, pub, by simp [withUnlocking, hi], rfl, ?_, hh, ?_⟩
    · refine ⟨.direct extra :: us, ?_, ?_, ?_⟩
      · simp [bytesOf, hus, push, if_pos hx, Token.bytes, Token.header, Token.data]
      · have h0 : 0 < extra.length := List.length_pos_iff.mpr hx0
        intro u hu'
        rcases List.mem_cons.mp hu' with rfl | hu'
        · refine ⟨?_, ?_, by simp⟩
          · simp only [Token.Valid]; omega
          · simp [PushOnly]
        · exact hv u hu'
      · simp only [List.map_cons, ← hit, pushValue, List.cons_append]
    · obtain ⟨sig, flag, e1, e2, e3⟩ := hsig
      refine ⟨sig, flag, e1, e2, ?_⟩
      rw [← preimage_same hsame]
      exact e3
  · intro j lock v hj
    have hk : tx.Inputs[j]? = (withUnlocking tx k (push extra ++ unl)).Inputs[j]? := by
      simp only [withUnlocking, List.getElem?_mapIdx, if_neg hj]
      cases tx.Inputs[j]? <;> rfl
    exact ⟨accepted_same H verify hsame.symm j lock v hk.symm, accepted_same H verify hsame j lock v hk⟩
  · have hne : (withUnlocking tx k (push extra ++ unl)).ToBytes ≠ tx.ToBytes := by
      intro e
      have := (toBytes_withUnlocking tx ht hsz k inp hi _).mp e
      rw [hu] at this
      have := congrArg List.length this
      simp only [Option.getD_some, List.length_append, push, if_pos hx, List.length_cons] at this
      omega
    refine ⟨hne, ?_⟩
    by_cases hc : (withUnlocking tx k (push extra ++ unl)).GetTxID H = tx.GetTxID H
    · right; exact ⟨hne, (txid_eq_iff _ _ _).mp hc⟩
    · left; exact hc

theorem exTwo_sized : Sized exTwo := by
  refine ⟨by decide +kernel, by decide +kernel, by decide +kernel, ?_⟩
  have : ∀ i ∈ exTwo.Inputs, (i.PreviousTxScript.getD []).length < 2 ^ 64 := by decide +kernel
  intro i hi s hs
  have h := this i hi
  rw [hs] at h
  exact h

theorem exTwo_readable : ReadableScripts exTwo := by
  unfold ReadableScripts
  decide +kernel

/-- The hypotheses of C112 (b) hold of input 0 of `exTwo`, and its id does change. -/
example : ∃ tx', toySigner.Sign toyH 0 exTwo = .ok tx' ∧ tx'.ToBytes ≠ exTwo.ToBytes ∧ (tx'.GetTxID toyH ≠ exTwo.GetTxID toyH ∨ IdCollision toyH tx'.ToBytes exTwo.ToBytes) := by
  have hok : (toySigner.Sign toyH 0 exTwo).isOk := by decide +kernel
  rcases h : toySigner.Sign toyH 0 exTwo with tx' | e | _ <;> rw [h] at hok
  · exact ⟨tx', rfl, C112_sign toyH toySigner toySigner_sized exTwo tx' exTwo_sized (by decide +kernel) (by decide +kernel) 0 _ rfl rfl h⟩
  · cases hok
  · cases hok

/-- The hypotheses of C112 (d) hold of `exTwo` after its first input is signed. -/
example : ∃ tx h tx', h = toyH.ripemd160 (toyH.sha256 toySigner.pubKey) ∧ signWithAll toyH [toySigner] exTwo = .ok tx ∧ Accepted toyH toyVerify tx 0 (p2pkh h) 5 ∧
    Accepted toyH toyVerify tx' 0 (p2pkh h) 5 ∧ tx'.ToBytes ≠ tx.ToBytes := by
  obtain ⟨tx, h1, h2, h3⟩ := C70_signed_accepted toyH toyVerify [toySigner] (by simpa using toySigner_good) exTwo exTwo_sized exTwo_readable
  have e0 : exTwo.Inputs[0]? = some ⟨List.replicate 64 65, 1, 5, some (p2pkh (toyH.ripemd160 (toyH.sha256 toySigner.pubKey))), none, 1⟩ := rfl
  have h4 := h3 toySigner (by simp) 0 _ e0 (by simp) rfl
  have hsmall : tx.ToBytes.length < 2 ^ 62 := by
    have : (match signWithAll toyH [toySigner] exTwo with | .ok t => t.ToBytes.length | _ => 0) < 2 ^ 62 := by decide +kernel
    rw [h1] at this; exact this
  have hids : ∀ i ∈ tx.Inputs, IsTxId i.PreviousTxID := by
    have : (match signWithAll toyH [toySigner] exTwo with | .ok t => t.Inputs.all (fun i => decide (IsTxId i.PreviousTxID)) | _ => false) = true := by decide +kernel
    rw [h1] at this
    simpa using this
  obtain ⟨inp, unl, tx', _, _, _, g4, _, g6, _⟩ := C112_third_party toyH toyVerify tx hids hsmall 0 _ (toyH.ripemd160_length _) 5 h4 [7] (by simp) (by simp)
  exact ⟨tx, _, tx', rfl, h1, h4, g4, g6⟩

end Verif.Props
