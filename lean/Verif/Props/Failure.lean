import Verif.Props.SignAuto
import Verif.Props.Signing
import Verif.Spec.Failure
/-!
# C113: after a failed call

What the receiver of a mutating method holds when the method returns an error or panics (and the caller recovers). Model/Stateful has the methods statement by statement; the theorems compare them
with the functional models about which the other properties speak.
-/
namespace Verif.Props
open Verif Verif.Spec

/-! ## Calculation with method bodies -/

section
variable {σ α β : Type}
theorem eff_bind (m : Eff.Eff σ α) (f : α → Eff.Eff σ β) (s : σ) :
    (m >>= f) s = match m s with | (s', .ok a) => f a s' | (s', .err e) => (s', .err e) | (s', .panic) => (s', .panic) := rfl
theorem eff_read (s : σ) : (Eff.read : Eff.Eff σ σ) s = (s, .ok s) := rfl
theorem eff_store (f : σ → σ) (s : σ) : Eff.store f s = (f s, .ok ()) := rfl
theorem eff_call (r : Res α) (s : σ) : (Eff.call r : Eff.Eff σ α) s = (s, r) := rfl
theorem eff_pure (a : α) (s : σ) : (pure a : Eff.Eff σ α) s = (s, .ok a) := rfl
end

/-! ## Methods that are all or nothing -/

/-- What the functional model says a script call does. -/
def scriptModel (c : ScriptCall) (s : Script) : Res Script :=
  match c with
  | .data d => Verif.AppendPushData s d
  | .hex t => Verif.AppendPushDataHexString s t
  | .str t => Verif.AppendPushDataString s t
  | .array d => Verif.AppendPushDataArray s d
  | .strings t => Verif.AppendPushDataStrings s t

/-- The method body of a script call. -/
def scriptBody : ScriptCall → Eff.Eff Script Unit
  | .data d => Eff.AppendPushData d
  | .hex t => Eff.AppendPushDataHexString t
  | .str t => Eff.AppendPushDataString t
  | .array d => Eff.AppendPushDataArray d
  | .strings t => Eff.AppendPushDataStrings t

theorem appendPushData_eff (d : Bytes) (s : Script) : Eff.AppendPushData d s = allOrNothing s (Verif.AppendPushData s d) := by
  simp only [Eff.AppendPushData, eff_bind, eff_call, eff_store, Verif.AppendPushData]
  cases EncodeParts [d] <;> rfl

theorem appendPushDataArray_eff (d : List Bytes) (s : Script) : Eff.AppendPushDataArray d s = allOrNothing s (Verif.AppendPushDataArray s d) := by
  simp only [Eff.AppendPushDataArray, eff_bind, eff_call, eff_store, Verif.AppendPushDataArray]
  cases EncodeParts d <;> rfl

/-- C113, scripts: every appending method leaves the script as it was unless it succeeds. -/
theorem C113_script (c : ScriptCall) (s : Script) : scriptBody c s = allOrNothing s (scriptModel c s) := by
  cases c with
  | data d => exact appendPushData_eff d s
  | hex t =>
    simp only [scriptBody, scriptModel, Eff.AppendPushDataHexString, eff_bind, eff_call, Verif.AppendPushDataHexString]
    rcases hexDecodeRes t with h | e | _
    · exact appendPushData_eff h s
    · rfl
    · rfl
  | str t => exact appendPushData_eff t s
  | array d => exact appendPushDataArray_eff d s
  | strings t => exact appendPushDataArray_eff _ s

/-- C113, redeem scripts: `AddPublicKey` leaves the list of keys as it was unless it succeeds, whatever the key library does (error or panic at any of its calls). -/
theorem C113_redeem (hd : HDKeychain) (pkey : Bytes) (path : List UInt32) (rs : RedeemScript) :
    Eff.AddPublicKey hd pkey path rs = allOrNothing rs (AddPublicKey hd rs pkey path) := by
  unfold Eff.AddPublicKey AddPublicKey
  split_ifs with h
  · rfl
  · obtain ⟨a, b, rfl⟩ : ∃ a b, path = [a, b] := by
      match path, h with
      | [a, b], _ => exact ⟨a, b, rfl⟩
      | [], h => simp at h
      | [_], h => simp at h
      | _ :: _ :: _ :: _, h => simp at h
    simp only [eff_bind, eff_call, eff_store, HDKeychain.derive, index, List.getD_cons_zero, List.getD_cons_succ, List.getElem?_cons_zero, List.getElem?_cons_succ]
    rcases hd.newKeyFromString pkey with k | e | _ <;> try rfl
    simp only [Res.ok_bind]
    rcases hd.child k a with k1 | e | _ <;> try rfl
    simp only [Res.ok_bind]
    rcases hd.child k1 b with k2 | e | _ <;> try rfl
    simp only [Res.ok_bind]
    rcases hd.ecPubKey k2 with k3 | e | _ <;> rfl

/-- The signer after a call of `Sign` or `SignAuto`: flag 0 has been replaced. -/
def defaulted (is : InternalSigner) : InternalSigner := { is with SigHashFlag := flagOrDefault is.SigHashFlag }

theorem defaultFlag_eff (tx : Transaction) (is : InternalSigner) : Eff.defaultFlag ⟨tx, is⟩ = (⟨tx, defaulted is⟩, .ok ()) := by
  simp only [Eff.defaultFlag, eff_bind, eff_read, defaulted, flagOrDefault]
  split_ifs with h
  · rfl
  · rfl

theorem applyUnlocking_eff (idx : UInt32) (s : Script) (tx : Transaction) : Eff.ApplyUnlockingScript idx s tx = allOrNothing tx (tx.ApplyUnlockingScript idx s) := by
  simp only [Eff.ApplyUnlockingScript, eff_bind, eff_read, eff_call, eff_store, Transaction.ApplyUnlockingScript]
  cases index tx.Inputs idx.toNat <;> rfl

/-- C113, signing one input: whether the call succeeds, returns an error or panics, the transaction is all or nothing; the signer's flag 0 is replaced in every case. -/
theorem C113_sign (H : HashFns) (idx : UInt32) (tx : Transaction) (is : InternalSigner) :
    Eff.Sign H idx ⟨tx, is⟩ = (⟨(allOrNothing tx (is.Sign H idx tx)).1, defaulted is⟩, (allOrNothing tx (is.Sign H idx tx)).2) ∧
    Eff.txSign H idx ⟨tx, is⟩ = Eff.Sign H idx ⟨tx, is⟩ := by
  constructor
  · simp only [Eff.Sign, eff_bind, defaultFlag_eff, eff_read, eff_call, Eff.onTx, applyUnlocking_eff, InternalSigner.Sign, effFlag_eq]
    have e : (defaulted is).SigHashFlag = flagOrDefault is.SigHashFlag := rfl
    rw [e]
    rcases tx.GetInputSignatureHash H idx (flagOrDefault is.SigHashFlag) with sh | m | _ <;> try rfl
    simp only [Res.ok_bind]
    have e2 : (defaulted is).sign = is.sign := rfl
    rw [e2]
    rcases is.sign (ReverseBytes sh) with sig | m | _ <;> rfl
  · simp only [Eff.txSign, eff_bind, eff_store]
    rcases Eff.Sign H idx ⟨tx, is⟩ with ⟨s, r | m | _⟩ <;> rfl

/-- What the functional model says a transaction call does. -/
def txModel (H : HashFns) (c : TxCall) (tx : Transaction) : Res Transaction :=
  match c with
  | .fromUtxo t v s a => tx.From t v s a
  | .payTo a n => tx.PayTo a n
  | .apply k s => tx.ApplyUnlockingScript k s
  | .sign k is => is.Sign H k tx

/-- The method body of a transaction call, as far as the transaction is concerned. -/
def txBody (H : HashFns) : TxCall → Eff.Eff Transaction Unit
  | .fromUtxo t v s a => Eff.From t v s a
  | .payTo a n => Eff.PayTo a n
  | .apply k s => Eff.ApplyUnlockingScript k s
  | .sign k is => fun tx => let r := Eff.txSign H k ⟨tx, is⟩; (r.1.tx, r.2)

/-- C113, transactions: `From`, `PayTo`, `ApplyUnlockingScript` and `Sign` leave the transaction as it was unless they succeed. -/
theorem C113_transaction (H : HashFns) (c : TxCall) (tx : Transaction) : txBody H c tx = allOrNothing tx (txModel H c tx) := by
  cases c with
  | fromUtxo t v s a =>
    simp only [txBody, txModel, Eff.From, eff_bind, eff_call, Eff.AddInput, eff_store, Transaction.From]
    cases Script.NewFromHexString s <;> rfl
  | payTo a n =>
    simp only [txBody, txModel, Eff.PayTo, eff_bind, eff_call, Eff.AddOutput, eff_store, Transaction.PayTo]
    cases Output.NewP2PKHFromAddress a n <;> rfl
  | apply k s => exact applyUnlocking_eff k s tx
  | sign k is => simp only [txBody, txModel, (C113_sign H k tx is).2, (C113_sign H k tx is).1]

/-! ## Callers that go on after failures -/

theorem carryOn_eq {σ ι : Type} (body : ι → σ → σ × Res Unit) (model : ι → σ → Res σ) (h : ∀ c s, body c s = allOrNothing s (model c s)) (l : List ι) (s : σ) :
    inSequence (marked (l.map model) (carryOn (l.map body) s).2) s = .ok (carryOn (l.map body) s).1 ∧ (carryOn (l.map body) s).2.length = l.length := by
  induction l generalizing s with
  | nil => exact ⟨rfl, rfl⟩
  | cons c l ih =>
    simp only [List.map_cons, carryOn, List.length_cons, h]
    rcases hm : model c s with s' | e | _
    · simp only [allOrNothing, Res.isOk_ok, marked, inSequence, hm, Res.ok_bind]
      exact ⟨(ih s').1, by rw [(ih s').2]⟩
    · simp only [allOrNothing, Res.isOk_err, marked]
      exact ⟨(ih s).1, by rw [(ih s).2]⟩
    · simp only [allOrNothing, Res.isOk_panic, marked]
      exact ⟨(ih s).1, by rw [(ih s).2]⟩

/-- C113, histories: a caller that makes any calls on a transaction and goes on after errors and recovered panics has at the end the transaction that the calls that succeeded, made alone and
in that order, give; none of them fails then. -/
theorem C113_history (H : HashFns) (calls : List TxCall) (tx : Transaction) :
    inSequence (marked (calls.map (txModel H)) (carryOn (calls.map (txBody H)) tx).2) tx = .ok (carryOn (calls.map (txBody H)) tx).1 :=
  (carryOn_eq (txBody H) (txModel H) (C113_transaction H) calls tx).1

/-- The same for the calls on a script. -/
theorem C113_script_history (calls : List ScriptCall) (s : Script) :
    inSequence (marked (calls.map scriptModel) (carryOn (calls.map scriptBody) s).2) s = .ok (carryOn (calls.map scriptBody) s).1 :=
  (carryOn_eq scriptBody scriptModel C113_script calls s).1

/-! ## `SignAuto` -/

theorem sign_defaulted (H : HashFns) (is : InternalSigner) : (defaulted is).Sign H = is.Sign H := by
  funext idx tx
  have : (defaulted is).effFlag = is.effFlag := by
    simp only [effFlag_eq, defaulted, flagOrDefault]
    split_ifs <;> simp_all
  simp only [InternalSigner.Sign, this]
  rfl

theorem defaulted_twice (is : InternalSigner) : defaulted (defaulted is) = defaulted is := by
  simp only [defaulted, flagOrDefault]
  split_ifs <;> simp_all

/-- The loop over a list of positions with the transaction kept on failure. -/
def untilPanic (H : HashFns) (is : InternalSigner) : List Nat → Transaction → Transaction × Res Unit
  | [], tx => (tx, .ok ())
  | k :: l, tx => match is.signAutoStep H k tx with
    | .ok tx' => untilPanic H is l tx'
    | .err e => (tx, .err e)
    | .panic => (tx, .panic)

theorem step_length {H : HashFns} {is : InternalSigner} {tx tx' : Transaction} {k : Nat} (h : is.signAutoStep H k tx = .ok tx') : tx'.Inputs.length = tx.Inputs.length := by
  have := congrArg List.length (autoStep_same h).2.2.2
  simpa using this.symm

theorem loop_eff (H : HashFns) (is : InternalSigner) (n : Nat) : ∀ (i : Nat) (tx : Transaction), i + n ≤ tx.Inputs.length →
    Eff.signAutoLoop H n i ⟨tx, defaulted is⟩ = (⟨(untilPanic H is (List.range' i n) tx).1, defaulted is⟩, (untilPanic H is (List.range' i n) tx).2) := by
  induction n with
  | zero => intro i tx _; rfl
  | succ n ih =>
    intro i tx hle
    have hi : tx.Inputs[i]? = some (tx.Inputs[i]'(by omega)) := List.getElem?_eq_getElem _
    generalize tx.Inputs[i]'(by omega) = inp at hi
    have hstep : is.signAutoStep H i tx = match GetPublicKeyHash inp.PreviousTxScript with
      | .panic => .panic
      | r => if hexEncode (match r with | .ok h => h | _ => []) = hexEncode (Hash160 H is.pubKey) then
          match is.Sign H (UInt32.ofNat i) tx with | .ok tx' => .ok tx' | .err _ => .ok tx | .panic => .panic
        else .ok tx := by
      simp only [InternalSigner.signAutoStep, hi]
      rfl
    have hpub : (defaulted is).pubKey = is.pubKey := rfl
    have hfin : ∀ tx', is.signAutoStep H i tx = .ok tx' → Eff.signAutoLoop H n (i + 1) ⟨tx', defaulted is⟩ =
        (⟨(untilPanic H is (List.range' i (n + 1)) tx).1, defaulted is⟩, (untilPanic H is (List.range' i (n + 1)) tx).2) := by
      intro tx' h
      simp only [List.range'_succ, untilPanic, h]
      exact ih (i + 1) tx' (by rw [step_length h]; omega)
    have hbad : is.signAutoStep H i tx = .panic → ((⟨tx, defaulted is⟩ : Eff.Signing), (Res.panic : Res Unit)) =
        (⟨(untilPanic H is (List.range' i (n + 1)) tx).1, defaulted is⟩, (untilPanic H is (List.range' i (n + 1)) tx).2) := by
      intro h
      simp only [List.range'_succ, untilPanic, h]
    have hsign : Eff.Sign H (UInt32.ofNat i) ⟨tx, defaulted is⟩ =
        (⟨(allOrNothing tx (is.Sign H (UInt32.ofNat i) tx)).1, defaulted is⟩, (allOrNothing tx (is.Sign H (UInt32.ofNat i) tx)).2) := by
      rw [(C113_sign H _ tx (defaulted is)).1, sign_defaulted, defaulted_twice]
    simp only [Eff.signAutoLoop, eff_bind, eff_read, eff_call, index, hi, Eff.dropErr]
    rcases hg : GetPublicKeyHash inp.PreviousTxScript with h | e | _ <;> rw [hg] at hstep
    · simp only [Option.getD_some, hpub]
      simp only at hstep
      by_cases heq : hexEncode h = hexEncode (Hash160 H is.pubKey)
      · rw [if_pos heq] at hstep ⊢
        rw [eff_bind, Eff.dropErr, hsign]
        rcases hs : is.Sign H (UInt32.ofNat i) tx with t | e | _ <;> rw [hs] at hstep
        · exact hfin t hstep
        · exact hfin tx hstep
        · exact hbad hstep
      · rw [if_neg heq] at hstep ⊢
        exact hfin tx hstep
    · simp only [Option.getD_none, hpub]
      simp only at hstep
      by_cases heq : hexEncode [] = hexEncode (Hash160 H is.pubKey)
      · rw [if_pos heq] at hstep ⊢
        rw [eff_bind, Eff.dropErr, hsign]
        rcases hs : is.Sign H (UInt32.ofNat i) tx with t | e | _ <;> rw [hs] at hstep
        · exact hfin t hstep
        · exact hfin tx hstep
        · exact hbad hstep
      · rw [if_neg heq] at hstep ⊢
        exact hfin tx hstep
    · exact hbad hstep

theorem signAuto_eff (H : HashFns) (tx : Transaction) (is : InternalSigner) :
    Eff.SignAuto H ⟨tx, is⟩ = (⟨(untilPanic H is (List.range' 0 tx.Inputs.length) tx).1, defaulted is⟩, (untilPanic H is (List.range' 0 tx.Inputs.length) tx).2) := by
  simp only [Eff.SignAuto, eff_bind, defaultFlag_eff, eff_read]
  exact loop_eff H is _ 0 tx (by omega)

theorem txSignAuto_eff (H : HashFns) (tx : Transaction) (is : InternalSigner) : Eff.txSignAuto H ⟨tx, is⟩ = Eff.SignAuto H ⟨tx, is⟩ := by
  simp only [Eff.txSignAuto, eff_bind, eff_store]
  rcases Eff.SignAuto H ⟨tx, is⟩ with ⟨s, r | m | _⟩ <;> rfl

theorem untilPanic_ok {H : HashFns} {is : InternalSigner} {l : List Nat} {tx : Transaction} :
    (∀ t, signInOrder H is l tx = .ok t → untilPanic H is l tx = (t, .ok ())) ∧
    (∀ e, signInOrder H is l tx = .err e → (untilPanic H is l tx).2 = .err e) ∧ (signInOrder H is l tx = .panic → (untilPanic H is l tx).2 = .panic) := by
  induction l generalizing tx with
  | nil =>
    refine ⟨fun t h => ?_, fun e h => by simp [signInOrder] at h, fun h => by simp [signInOrder] at h⟩
    simp only [signInOrder, Res.ok.injEq] at h
    subst h; rfl
  | cons k l ih =>
    simp only [signInOrder, untilPanic]
    rcases is.signAutoStep H k tx with t | e | _
    · exact ih
    · simp
    · simp

/-- C113, `SignAuto` ends as the functional model says; when it returns, the transaction is the functional result; the signer's flag 0 is replaced in every case. -/
theorem C113_auto_model (H : HashFns) (tx : Transaction) (is : InternalSigner) :
    (∀ t, is.SignAuto H tx = .ok t → Eff.txSignAuto H ⟨tx, is⟩ = (⟨t, defaulted is⟩, .ok ())) ∧
    (∀ e, is.SignAuto H tx = .err e → (Eff.txSignAuto H ⟨tx, is⟩).2 = .err e) ∧
    (is.SignAuto H tx = .panic → (Eff.txSignAuto H ⟨tx, is⟩).2 = .panic) ∧ (Eff.txSignAuto H ⟨tx, is⟩).1.signer = defaulted is := by
  rw [txSignAuto_eff, signAuto_eff]
  unfold InternalSigner.SignAuto
  rw [signAutoLoop_eq]
  refine ⟨fun t h => ?_, untilPanic_ok.2.1, untilPanic_ok.2.2, rfl⟩
  rw [untilPanic_ok.1 t h]

theorem untilPanic_append (H : HashFns) (is : InternalSigner) (l l' : List Nat) (tx t : Transaction) (h : untilPanic H is l tx = (t, .ok ())) :
    untilPanic H is (l ++ l') tx = untilPanic H is l' t := by
  induction l generalizing tx with
  | nil => simp only [untilPanic, Prod.mk.injEq] at h; rw [← h.1]; rfl
  | cons k l ih =>
    simp only [untilPanic, List.cons_append] at h ⊢
    rcases hx : is.signAutoStep H k tx with x | e | _ <;> rw [hx] at h
    · exact ih x h
    · simp at h
    · simp at h

theorem untilPanic_eq (H : HashFns) (is : InternalSigner) (hz : SignerSized is) (hp : ∀ d, is.sign d ≠ .panic) (tx : Transaction) (hs : Sized tx) (l : List Nat)
    (hr : ∀ k ∈ l, ∀ i, tx.Inputs[k]? = some i → GetPublicKeyHash i.PreviousTxScript ≠ .panic) :
    untilPanic H is l tx = (signedAt (newScript H is tx) l tx, .ok ()) := by
  rw [← setAll_eq]
  suffices h : ∀ l t, SameButUnlocking tx t → (∀ k ∈ l, ∀ i, tx.Inputs[k]? = some i → GetPublicKeyHash i.PreviousTxScript ≠ .panic) →
      untilPanic H is l t = (setAll (newScript H is tx) l t, .ok ()) from h l tx (SameButUnlocking.refl tx) hr
  intro l
  induction l with
  | nil => intro t _ _; rfl
  | cons k l ih =>
    intro t ht hr
    have hr' : ∀ i, t.Inputs[k]? = some i → GetPublicKeyHash i.PreviousTxScript ≠ .panic := by
      intro i hi
      rcases input_same ht k with ⟨_, h2⟩ | ⟨j, i', h1, h2, _, e⟩
      · rw [hi] at h2; cases h2
      · rw [hi] at h2; injection h2 with h2; subst h2
        rw [← e]; exact hr k (by simp) j h1
    simp only [untilPanic]
    rw [step_eq_at H is hz hp t (sized_same hs ht) k hr', newScript_same H is hs ht]
    exact ih _ (ht.trans (setUnlocking_same _ _ _)) fun k' hk' => hr k' (by simp [hk'])

/-- The position of the first input whose previous script makes the key-hash extraction panic. -/
def FirstUnreadable (tx : Transaction) (k : Nat) : Prop :=
  (∃ i, tx.Inputs[k]? = some i ∧ GetPublicKeyHash i.PreviousTxScript = .panic) ∧
  ∀ j < k, ∀ i, tx.Inputs[j]? = some i → GetPublicKeyHash i.PreviousTxScript ≠ .panic

theorem auto_state (H : HashFns) (is : InternalSigner) (hz : SignerSized is) (hp : ∀ d, is.sign d ≠ .panic) (tx : Transaction) (hs : Sized tx) (k : Nat) (hk : FirstUnreadable tx k) :
    Eff.txSignAuto H ⟨tx, is⟩ = (⟨signedAt (newScript H is tx) (List.range k) tx, defaulted is⟩, .panic) := by
  rw [txSignAuto_eff, signAuto_eff]
  obtain ⟨⟨i, hi, hpan⟩, hbefore⟩ := hk
  have hlt : k < tx.Inputs.length := (List.getElem?_eq_some_iff.mp hi).1
  have hsplit : List.range' 0 tx.Inputs.length = List.range k ++ k :: List.range' (k + 1) (tx.Inputs.length - k - 1) := by
    rw [List.range_eq_range']
    have e1 : k :: List.range' (k + 1) (tx.Inputs.length - k - 1) = List.range' k (tx.Inputs.length - k) := by
      rw [show tx.Inputs.length - k = (tx.Inputs.length - k - 1) + 1 by omega, List.range'_succ]; rfl
    rw [e1]
    have := List.range'_append (s := 0) (m := k) (n := tx.Inputs.length - k) (step := 1)
    simp only [one_mul, zero_add] at this
    rw [this]; congr 1; omega
  have hpre := untilPanic_eq H is hz hp tx hs (List.range k) (fun j hj => hbefore j (List.mem_range.mp hj))
  rw [hsplit, untilPanic_append _ _ _ _ _ _ hpre]
  have hsame : SameButUnlocking tx (signedAt (newScript H is tx) (List.range k) tx) := by
    rw [← setAll_eq]; exact setAll_same _ _ _
  have hstep : is.signAutoStep H k (signedAt (newScript H is tx) (List.range k) tx) = .panic := by
    rcases input_same hsame k with ⟨h1, _⟩ | ⟨a, b, h1, h2, _, e⟩
    · rw [hi] at h1; cases h1
    · rw [hi] at h1; injection h1 with h1; subst h1
      simp only [InternalSigner.signAutoStep, h2, ← e, hpan]
  simp only [untilPanic, hstep]

/-- C113, `SignAuto` is not all or nothing: it panics at the first input whose previous script cannot be read, and the selected inputs before it are already signed, exactly as signing each of
them alone in the original transaction would; the inputs from that one on, the outputs, version and locktime are as before. -/
theorem C113_auto_panic (H : HashFns) (is : InternalSigner) (hz : SignerSized is) (hp : ∀ d, is.sign d ≠ .panic) (tx : Transaction) (hs : Sized tx) (k : Nat) (hk : FirstUnreadable tx k) :
    (Eff.txSignAuto H ⟨tx, is⟩).2 = .panic ∧ (Eff.txSignAuto H ⟨tx, is⟩).1.signer = defaulted is ∧
    SameButUnlocking tx (Eff.txSignAuto H ⟨tx, is⟩).1.tx ∧
    ∀ j inp, tx.Inputs[j]? = some inp →
      (j < k → Selected (H.ripemd160 (H.sha256 is.pubKey)) inp →
        (∀ t, is.Sign H (UInt32.ofNat j) tx = .ok t → (Eff.txSignAuto H ⟨tx, is⟩).1.tx.Inputs[j]? = t.Inputs[j]?) ∧
        (∀ e, is.Sign H (UInt32.ofNat j) tx = .err e → (Eff.txSignAuto H ⟨tx, is⟩).1.tx.Inputs[j]? = some inp)) ∧
      ((k ≤ j ∨ ¬ Selected (H.ripemd160 (H.sha256 is.pubKey)) inp) → (Eff.txSignAuto H ⟨tx, is⟩).1.tx.Inputs[j]? = some inp) := by
  classical
  rw [auto_state H is hz hp tx hs k hk]
  refine ⟨rfl, rfl, by rw [← setAll_eq]; exact setAll_same _ _ _, fun j inp hj => ?_⟩
  have hlt : j < tx.Inputs.length := (List.getElem?_eq_some_iff.mp hj).1
  have hjj : (UInt32.ofNat j).toNat = j := by
    rw [UInt32.toNat_ofNat']; exact Nat.mod_eq_of_lt (by have := hs.1; omega)
  have hval : (signedAt (newScript H is tx) (List.range k) tx).Inputs[j]? = some (if j < k then putScript (newScript H is tx j) inp else inp) := by
    simp only [signedAt, List.getElem?_mapIdx, hj, Option.map_some, List.mem_range]
  simp only [hval]
  constructor
  · intro hjk hsel
    rw [if_pos hjk]
    constructor
    · intro t ht
      rw [sign_eq] at ht
      obtain ⟨sh, h1, ht⟩ := Res.bind_eq_ok.mp ht
      obtain ⟨sig, h2, ht⟩ := Res.bind_eq_ok.mp ht
      rw [newP2PKHUnlocking_eq _ (hz.2 _ _ h2) hz.1, applyUnlocking_eq _ (by omega), hjj] at ht
      injection ht with ht
      subst ht
      have : newScript H is tx j = some (unlocking sig (flagOrDefault is.SigHashFlag) is.pubKey) := by
        simp only [newScript, hj, if_pos hsel, h1, h2]
      rw [this]
      simp only [withUnlocking, List.getElem?_mapIdx, hj, Option.map_some, if_true]
      rfl
    · intro e he
      rw [sign_eq] at he
      have : newScript H is tx j = none := by
        simp only [newScript, hj, if_pos hsel]
        rcases h1 : tx.GetInputSignatureHash H (UInt32.ofNat j) (flagOrDefault is.SigHashFlag) with sh | m | _
        · rw [h1, Res.ok_bind] at he
          rcases h2 : is.sign sh.reverse with sig | m | _
          · rw [h2, Res.ok_bind, applyUnlocking_eq _ (by omega)] at he; cases he
          · simp only [h2]
          · simp only [h2]
        · rfl
        · rfl
      rw [this]; rfl
  · rintro (h | h)
    · rw [if_neg (by omega)]
    · have : newScript H is tx j = none := by simp only [newScript, hj, if_neg h]
      rw [this]
      split_ifs <;> rfl

/-! ## Repairing and signing again -/

theorem withPrevScript_input (tx : Transaction) (k : Nat) (s : Option Bytes) (j : Nat) :
    (withPrevScript tx k s).Inputs[j]? = (tx.Inputs[j]?).map fun i => if j = k then { i with PreviousTxScript := s } else i := by
  simp only [withPrevScript, List.getElem?_mapIdx]

theorem withPrevScript_flatMap {β : Type} (f : Input → List β) (hf : ∀ i s, f { i with PreviousTxScript := s } = f i) (tx : Transaction) (k : Nat) (s : Option Bytes) :
    (withPrevScript tx k s).Inputs.flatMap f = tx.Inputs.flatMap f := by
  rw [List.flatMap_def, List.flatMap_def]
  congr 1
  apply List.ext_getElem
  · simp [withPrevScript]
  · intro n h1 h2
    simp only [withPrevScript, List.getElem_map, List.getElem_mapIdx]
    split_ifs
    · exact hf _ _
    · rfl

theorem withPrevScript_sized (tx : Transaction) (k : Nat) (s : Option Bytes) (hs : Sized tx) (hl : ∀ b, s = some b → b.length < 2 ^ 64) : Sized (withPrevScript tx k s) := by
  obtain ⟨s1, s2, s3, s4⟩ := hs
  refine ⟨by simpa [withPrevScript] using s1, s2, s3, fun i hi b hb => ?_⟩
  obtain ⟨j, hj⟩ := List.mem_iff_getElem?.mp hi
  rw [withPrevScript_input] at hj
  obtain ⟨i0, h0, rfl⟩ := Option.map_eq_some_iff.mp hj
  split_ifs at hb with h
  · exact hl b hb
  · exact s4 i0 (List.mem_of_getElem? h0) b hb

theorem newScript_other (H : HashFns) (is : InternalSigner) (tx : Transaction) (hs : Sized tx) (k : Nat) (s : Option Bytes) (hl : ∀ b, s = some b → b.length < 2 ^ 64) (j : Nat) (hj : j ≠ k) :
    newScript H is (withPrevScript tx k s) j = newScript H is tx j := by
  classical
  have hin : (withPrevScript tx k s).Inputs[j]? = tx.Inputs[j]? := by
    rw [withPrevScript_input]
    simp only [if_neg hj, Option.map_id']
  unfold newScript
  rw [hin]
  rcases hi : tx.Inputs[j]? with _ | i
  · rfl
  have hlt : j < tx.Inputs.length := (List.getElem?_eq_some_iff.mp hi).1
  have hjj : (UInt32.ofNat j).toNat = j := by
    rw [UInt32.toNat_ofNat']; exact Nat.mod_eq_of_lt (by have := hs.1; omega)
  simp only
  by_cases hsel : Selected (H.ripemd160 (H.sha256 is.pubKey)) i
  · rw [if_pos hsel, if_pos hsel]
    obtain ⟨ht, c, hc, -⟩ := hsel
    have e1 := C43_digest H tx hs (UInt32.ofNat j) (flagOrDefault is.SigHashFlag) i c (by rw [hjj]; exact hi) ht hc
    have e2 := C43_digest H (withPrevScript tx k s) (withPrevScript_sized tx k s hs hl) (UInt32.ofNat j) (flagOrDefault is.SigHashFlag) i c (by rw [hjj, hin]; exact hi) ht hc
    have e3 : ∀ d, preimage d (withPrevScript tx k s) (UInt32.ofNat j).toNat i c (flagOrDefault is.SigHashFlag) = preimage d tx (UInt32.ofNat j).toNat i c (flagOrDefault is.SigHashFlag) := by
      intro d
      have p1 : prevoutsString (withPrevScript tx k s) = prevoutsString tx := withPrevScript_flatMap _ (fun _ _ => rfl) tx k s
      have p2 : sequenceString (withPrevScript tx k s) = sequenceString tx := withPrevScript_flatMap _ (fun _ _ => rfl) tx k s
      simp only [preimage, p1, p2]
      rfl
    rw [e1, e2, e3]
  · rw [if_neg hsel, if_neg hsel]

/-- C113, repair: after `SignAuto` has panicked at input `k`, giving that input a previous script with which all can be read and calling `SignAuto` again gives exactly what a first call on the
repaired transaction gives: nothing of the failed attempt remains. -/
theorem C113_repair (H : HashFns) (is : InternalSigner) (hz : SignerSized is) (hp : ∀ d, is.sign d ≠ .panic) (tx : Transaction) (hs : Sized tx) (k : Nat) (hk : FirstUnreadable tx k)
    (s : Bytes) (hl : s.length < 2 ^ 64) (hr : ReadableScripts (withPrevScript tx k (some s))) :
    is.SignAuto H (withPrevScript (Eff.txSignAuto H ⟨tx, is⟩).1.tx k (some s)) = is.SignAuto H (withPrevScript tx k (some s)) ∧
    (is.SignAuto H (withPrevScript tx k (some s))).isOk := by
  rw [auto_state H is hz hp tx hs k hk]
  simp only
  have hl' : ∀ b, some s = some b → b.length < 2 ^ 64 := by rintro b ⟨⟩; exact hl
  have hz1 := withPrevScript_sized tx k (some s) hs hl'
  have hsame : SameButUnlocking (withPrevScript tx k (some s)) (withPrevScript (signedAt (newScript H is tx) (List.range k) tx) k (some s)) := by
    refine ⟨rfl, rfl, rfl, ?_⟩
    apply List.ext_getElem
    · simp [withPrevScript, signedAt]
    · intro n h1 h2
      simp only [withPrevScript, signedAt, List.getElem_map, List.getElem_mapIdx]
      cases newScript H is tx n <;> split_ifs <;> rfl
  unfold InternalSigner.SignAuto
  rw [signAutoLoop_eq, signAutoLoop_eq, signInOrder_eq H is hz hp _ hz1 hr, signInOrder_eq H is hz hp _ (sized_same hz1 hsame) (readable_same hsame hr)]
  refine ⟨?_, rfl⟩
  congr 1
  have hlen : (withPrevScript (signedAt (newScript H is tx) (List.range k) tx) k (some s)).Inputs.length = (withPrevScript tx k (some s)).Inputs.length := by
    simp [withPrevScript, signedAt]
  have hnew : newScript H is (withPrevScript (signedAt (newScript H is tx) (List.range k) tx) k (some s)) = newScript H is (withPrevScript tx k (some s)) := by
    funext j; exact newScript_same H is hz1 hsame j
  rw [hlen, hnew]
  unfold signedAt
  have hinputs : ∀ f g : Nat → Input → Input, (∀ n i, tx.Inputs[n]? = some i → f n i = g n i) → tx.Inputs.mapIdx f = tx.Inputs.mapIdx g := by
    intro f g hfg
    apply List.ext_getElem
    · simp
    · intro n h1 h2
      simp only [List.getElem_mapIdx]
      exact hfg n _ (List.getElem?_eq_getElem _)
  unfold withPrevScript
  simp only [List.mapIdx_mapIdx, Transaction.mk.injEq, true_and, and_true]
  apply hinputs
  intro n i hi
  have hlt : n < tx.Inputs.length := (List.getElem?_eq_some_iff.mp hi).1
  have hmem : n ∈ List.range' 0 (tx.Inputs.mapIdx fun j i => if j = k then { i with PreviousTxScript := some s } else i).length := by
    simp only [List.length_mapIdx, List.mem_range'_1]; omega
  simp only [Function.comp, if_pos hmem, List.mem_range]
  by_cases hn : n < k
  · have hne : n ≠ k := by omega
    have := newScript_other H is tx hs k (some s) hl' n hne
    simp only [withPrevScript] at this
    rw [this]
    simp only [if_pos hn, if_neg hne, putScript_twice]
  · simp only [if_neg hn]

/-! ## Instances -/

/-- A transaction whose first input the toy key signs and whose second previous script is a lone OP_DUP. -/
def exHalf : Transaction :=
  { exSpend with Inputs := [
      { PreviousTxID := List.replicate 64 49, PreviousTxOutIndex := 1, PreviousTxSatoshis := 5,
        PreviousTxScript := some (p2pkh (toyH.ripemd160 (toyH.sha256 toySigner.pubKey))), UnlockingScript := none, SequenceNumber := 1 },
      { PreviousTxID := List.replicate 64 50, PreviousTxOutIndex := 1, PreviousTxSatoshis := 5,
        PreviousTxScript := some [0x76], UnlockingScript := none, SequenceNumber := 1 }] }

theorem exHalf_first : FirstUnreadable exHalf 1 := by
  refine ⟨⟨_, rfl, by decide +kernel⟩, fun j hj i hi => ?_⟩
  have : j = 0 := by omega
  subst this
  cases hi
  decide +kernel

theorem exHalf_sized : Sized exHalf := by
  obtain ⟨-, h2, h3, -⟩ := exSpend_sized
  refine ⟨by decide +kernel, h2, h3, ?_⟩
  intro i hi s hs
  simp only [exHalf, List.mem_cons, List.not_mem_nil, or_false] at hi
  rcases hi with rfl | rfl <;> cases hs <;> decide +kernel

/-- C113 is violated by `SignAuto`: a call that panics leaves a transaction that is half signed. -/
theorem C113_auto_violated : ∃ tx, Sized tx ∧ (Eff.txSignAuto toyH ⟨tx, toySigner⟩).2 = .panic ∧ (Eff.txSignAuto toyH ⟨tx, toySigner⟩).1.tx ≠ tx := by
  refine ⟨exHalf, exHalf_sized, (C113_auto_panic toyH toySigner toySigner_sized (fun d h => by cases h) exHalf exHalf_sized 1 exHalf_first).1, ?_⟩
  intro h
  have := congrArg (fun t => t.Inputs.map Input.UnlockingScript) h
  revert this
  decide +kernel

/-- C113 is violated by `Sign` as far as the signer is concerned: a call that returns an error has changed the signer's flag. -/
theorem C113_signer_violated : (Eff.txSign toyH 1 ⟨exMany, toySigner⟩).2.isErr = true ∧ toySigner.SigHashFlag = 0 ∧
    (Eff.txSign toyH 1 ⟨exMany, toySigner⟩).1.signer.SigHashFlag = 0x41 := by
  decide +kernel

example : (scriptBody (.hex [48, 48, 120]) [0x51]).2.isErr = true ∧ (scriptBody (.hex [48, 48]) [0x51]).1 = [0x51, 1, 0] := by decide +kernel

example : (carryOn ([.apply 0 [1], .apply 9 [2], .payTo [49, 49] 5, .sign 0 toySigner, .apply 1 [3]].map (txBody toyH)) exMany).2 = [true, false, false, true, true] := by decide +kernel

example : ReadableScripts (withPrevScript exHalf 1 (some [0x51])) := by
  unfold ReadableScripts
  decide +kernel

end Verif.Props
