import Verif.Props.Signing
/-!
# C48, C49: signing many inputs, signature hashes across histories
-/
namespace Verif.Props
open Verif Spec Transaction

/-! ## Which inputs a key signs -/

theorem getPublicKeyHash_ok_iff (o : Option Script) (h : Bytes) :
    GetPublicKeyHash o = .ok h ↔ ∃ s, o = some s ∧ BeginsPayTo h s := by
  rcases o with _ | s
  · simp [GetPublicKeyHash]
  · have key : ∀ r : Bytes, (DecodeParts r >>= fun parts => index parts 0) = .ok h ↔ ∃ t ts, r = bytesOf (t :: ts) ∧ (∀ u ∈ t :: ts, u.Valid ∧ Decodable u) ∧ t.payload = h := by
      intro r
      rw [Res.bind_eq_ok]
      constructor
      · rintro ⟨ps, hd, hi⟩
        obtain ⟨ts, hv, hdec, hb, hp⟩ := decodeParts_ok hd
        rcases ts with _ | ⟨t, ts⟩
        · rw [hp] at hi; simp [payloads, index] at hi
        · rw [hp] at hi
          simp only [payloads, List.map_cons, index_cons_zero, Res.ok.injEq] at hi
          exact ⟨t, ts, hb, fun u hu => ⟨hv u hu, hdec u hu⟩, hi⟩
      · rintro ⟨t, ts, rfl, hv, hp⟩
        refine ⟨_, decodeParts_tokens (t :: ts) (fun u hu => (hv u hu).1) (fun u hu => (hv u hu).2), ?_⟩
        simp [payloads, hp]
    simp only [Option.some.injEq, exists_eq_left']
    unfold BeginsPayTo
    rcases s with _ | ⟨a, _ | ⟨b, r⟩⟩
    · simp [GetPublicKeyHash]
    · by_cases ha : a = 0x76 <;> simp [GetPublicKeyHash, ha, index]
    · by_cases ha : a = 0x76
      · subst ha
        by_cases hb : b = 0xa9
        · subst hb
          have i1 : index (0x76 :: 0xa9 :: r) 1 = .ok (0xa9 : UInt8) := rfl
          simp only [GetPublicKeyHash, List.length_cons, Nat.add_eq_zero_iff, one_ne_zero, and_false, if_false, index_cons_zero, Res.ok_bind, ne_eq,
            not_true_eq_false, i1, List.drop_succ_cons, List.drop_zero]
          rw [key r]
          simp
        · have i1 : index (0x76 :: b :: r) 1 = .ok b := rfl
          simp [GetPublicKeyHash, i1, hb]
      · simp [GetPublicKeyHash, ha]

/-- Input `i` is one the key with hash `h` signs: it names a previous transaction and its previous script begins OP_DUP OP_HASH160 `h`. -/
def Selected (h : Bytes) (i : Input) : Prop := i.PreviousTxID ≠ [] ∧ ∃ s, i.PreviousTxScript = some s ∧ BeginsPayTo h s

/-- A pay-to-public-key-hash script of the key's hash is among the selected ones. -/
theorem selected_p2pkh (h : Bytes) (hl : h.length = 20) (i : Input) (ht : i.PreviousTxID ≠ []) (hs : i.PreviousTxScript = some (p2pkh h)) : Selected h i := by
  refine ⟨ht, _, hs, .direct h, [.op 0x88, .op 0xac], ?_, ?_, rfl⟩
  · simp [p2pkh, bytesOf, Token.bytes, Token.header, Token.data, hl]
  · simp [Token.Valid, hl, Decodable]

/-! ## The step of `SignAuto` -/

/-- The unlocking script `is` gives input `k` of `tx`, `none` if it does not sign it. -/
noncomputable def newScript (H : HashFns) (is : InternalSigner) (tx : Transaction) (k : Nat) : Option Bytes := by
  classical
  exact match tx.Inputs[k]? with
  | none => none
  | some i =>
    if Selected (H.ripemd160 (H.sha256 is.pubKey)) i then
      match tx.GetInputSignatureHash H (UInt32.ofNat k) (flagOrDefault is.SigHashFlag) with
      | .ok sh => match is.sign sh.reverse with
        | .ok sig => some (unlocking sig (flagOrDefault is.SigHashFlag) is.pubKey)
        | _ => none
      | _ => none
    else none

/-- The transaction with input `k`'s unlocking script replaced if there is a new one. -/
def setUnlocking (tx : Transaction) (k : Nat) : Option Bytes → Transaction
  | some s => withUnlocking tx k s
  | none => tx

theorem setUnlocking_same (tx : Transaction) (k : Nat) (o : Option Bytes) : SameButUnlocking tx (setUnlocking tx k o) := by
  cases o
  · exact SameButUnlocking.refl _
  · exact withUnlocking_same _ _ _

theorem input_same {tx tx' : Transaction} (h : SameButUnlocking tx tx') (k : Nat) :
    (tx.Inputs[k]? = none ∧ tx'.Inputs[k]? = none) ∨ ∃ i i', tx.Inputs[k]? = some i ∧ tx'.Inputs[k]? = some i' ∧ i.PreviousTxID = i'.PreviousTxID ∧
      i.PreviousTxScript = i'.PreviousTxScript := by
  have := congrArg (·[k]?) h.2.2.2
  simp only [List.getElem?_map] at this
  rcases h1 : tx.Inputs[k]? with _ | i <;> rcases h2 : tx'.Inputs[k]? with _ | i' <;> rw [h1, h2] at this
  · exact Or.inl ⟨rfl, rfl⟩
  · simp at this
  · simp at this
  · simp only [Option.map_some, Option.some.injEq, Input.mk.injEq] at this
    exact Or.inr ⟨i, i', rfl, rfl, this.1, this.2.2.2.1⟩

theorem newScript_same (H : HashFns) (is : InternalSigner) {tx tx' : Transaction} (hs : Sized tx) (h : SameButUnlocking tx tx') (k : Nat) :
    newScript H is tx' k = newScript H is tx k := by
  classical
  unfold newScript
  rw [sighash_same H hs h]
  rcases input_same h k with ⟨h1, h2⟩ | ⟨i, i', h1, h2, e1, e2⟩
  · rw [h1, h2]
  · rw [h1, h2]
    have : Selected (H.ripemd160 (H.sha256 is.pubKey)) i ↔ Selected (H.ripemd160 (H.sha256 is.pubKey)) i' := by
      unfold Selected; rw [e1, e2]
    simp only [this]

/-- No previous script makes the key-hash extraction panic (see C20 for the exact domain). -/
def ReadableScripts (tx : Transaction) : Prop := ∀ i ∈ tx.Inputs, GetPublicKeyHash i.PreviousTxScript ≠ .panic

theorem step_eq_at (H : HashFns) (is : InternalSigner) (hz : SignerSized is) (hp : ∀ d, is.sign d ≠ .panic) (tx : Transaction) (hs : Sized tx) (k : Nat)
    (hr : ∀ i, tx.Inputs[k]? = some i → GetPublicKeyHash i.PreviousTxScript ≠ .panic) :
    is.signAutoStep H k tx = .ok (setUnlocking tx k (newScript H is tx k)) := by
  classical
  unfold InternalSigner.signAutoStep newScript
  rcases hi : tx.Inputs[k]? with _ | i
  · rfl
  simp only
  have hlt : k < tx.Inputs.length := (List.getElem?_eq_some_iff.mp hi).1
  have hk : (UInt32.ofNat k).toNat = k := by
    rw [UInt32.toNat_ofNat']; exact Nat.mod_eq_of_lt (by have := hs.1; omega)
  have hnp := hr i hi
  have hgood : GetPublicKeyHash i.PreviousTxScript = .ok (H.ripemd160 (H.sha256 is.pubKey)) ↔ ∃ s, i.PreviousTxScript = some s ∧ BeginsPayTo (H.ripemd160 (H.sha256 is.pubKey)) s :=
    getPublicKeyHash_ok_iff _ _
  have hh : Hash160 H is.pubKey = H.ripemd160 (H.sha256 is.pubKey) := rfl
  have hne : H.ripemd160 (H.sha256 is.pubKey) ≠ [] := by
    intro e; have := H.ripemd160_length (H.sha256 is.pubKey); rw [e] at this; simp at this
  have hcase : (is.Sign H (UInt32.ofNat k) tx = .panic → False) := by
    intro e
    rw [sign_eq] at e
    rcases Res.bind_eq_panic.mp e with e | ⟨sh, hsh, e⟩
    · have := (C46_outcome H tx hs (UInt32.ofNat k) (flagOrDefault is.SigHashFlag)).1.mp e
      omega
    · rcases Res.bind_eq_panic.mp e with e | ⟨sig, hsig, e⟩
      · exact hp _ e
      · rw [applyUnlocking_eq _ (by omega)] at e; cases e
  rcases hg : GetPublicKeyHash i.PreviousTxScript with hash | e | _
  · by_cases heq : hash = H.ripemd160 (H.sha256 is.pubKey)
    · subst heq
      dsimp only
      rw [hh, if_pos rfl]
      by_cases ht : i.PreviousTxID = []
      · have hns : ¬ Selected (H.ripemd160 (H.sha256 is.pubKey)) i := fun h => h.1 ht
        rw [if_neg hns]
        have herr : ((tx.GetInputSignatureHash H (UInt32.ofNat k) (flagOrDefault is.SigHashFlag))).isErr :=
          ((C46_outcome H tx hs (UInt32.ofNat k) (flagOrDefault is.SigHashFlag)).2.1).mpr ⟨i, by rw [hk]; exact hi, Or.inl ht⟩
        rw [sign_eq]
        rcases hx : tx.GetInputSignatureHash H (UInt32.ofNat k) (flagOrDefault is.SigHashFlag) with sh | e | _ <;> rw [hx] at herr
        · cases herr
        · rfl
        · cases herr
      · have hsel : Selected (H.ripemd160 (H.sha256 is.pubKey)) i := ⟨ht, hgood.mp hg⟩
        rw [if_pos hsel, sign_eq]
        rcases hx : tx.GetInputSignatureHash H (UInt32.ofNat k) (flagOrDefault is.SigHashFlag) with sh | e | _
        · rw [Res.ok_bind]
          rcases hy : is.sign sh.reverse with sig | e | _
          · rw [Res.ok_bind, newP2PKHUnlocking_eq _ (hz.2 _ _ hy) hz.1, applyUnlocking_eq _ (by omega), hk]
            simp only [hy]
            rfl
          · simp only [hy]
            rfl
          · exact absurd hy (hp _)
        · rfl
        · exfalso
          have := (C46_outcome H tx hs (UInt32.ofNat k) (flagOrDefault is.SigHashFlag)).1.mp hx
          omega
    · have hns : ¬ Selected (H.ripemd160 (H.sha256 is.pubKey)) i := by
        rintro ⟨-, h⟩
        have := hgood.mpr h
        rw [hg] at this; injection this with this; exact heq this
      have hx : ¬ hexEncode hash = hexEncode (Hash160 H is.pubKey) := fun e => heq (hexEncode_inj e)
      dsimp only
      rw [if_neg hns, if_neg hx]
      rfl
  · have hns : ¬ Selected (H.ripemd160 (H.sha256 is.pubKey)) i := by
      rintro ⟨-, h⟩
      have := hgood.mpr h
      rw [hg] at this; cases this
    have hx : ¬ hexEncode [] = hexEncode (Hash160 H is.pubKey) := fun e => hne (hexEncode_inj e).symm
    rw [if_neg hns]
    simp only
    rw [if_neg hx]
    rfl
  · exact absurd hg hnp

/-! ## Sequences of steps -/

theorem step_eq (H : HashFns) (is : InternalSigner) (hz : SignerSized is) (hp : ∀ d, is.sign d ≠ .panic) (tx : Transaction) (hs : Sized tx)
    (hr : ReadableScripts tx) (k : Nat) :
    is.signAutoStep H k tx = .ok (setUnlocking tx k (newScript H is tx k)) :=
  step_eq_at H is hz hp tx hs k fun i hi => hr i (List.mem_of_getElem? hi)

/-- Setting the unlocking scripts of a list of positions, one after the other, from a table. -/
def setAll (new : Nat → Option Bytes) (l : List Nat) (tx : Transaction) : Transaction := l.foldl (fun t k => setUnlocking t k (new k)) tx

theorem setAll_same (new : Nat → Option Bytes) (l : List Nat) (tx : Transaction) : SameButUnlocking tx (setAll new l tx) := by
  induction l generalizing tx with
  | nil => exact SameButUnlocking.refl _
  | cons k l ih => exact (setUnlocking_same tx k (new k)).trans (ih _)

/-- The input with its unlocking script replaced if there is a new one. -/
def putScript (o : Option Bytes) (i : Input) : Input := match o with | some s => { i with UnlockingScript := some s } | none => i

theorem putScript_twice (o : Option Bytes) (i : Input) : putScript o (putScript o i) = putScript o i := by cases o <;> rfl

/-- The transaction in which the positions of `l` that have a new script get it. -/
def signedAt (new : Nat → Option Bytes) (l : List Nat) (tx : Transaction) : Transaction :=
  { tx with Inputs := tx.Inputs.mapIdx fun k i => if k ∈ l then putScript (new k) i else i }

theorem setUnlocking_inputs (tx : Transaction) (k : Nat) (o : Option Bytes) :
    setUnlocking tx k o = { tx with Inputs := tx.Inputs.mapIdx fun j i => if j = k then putScript o i else i } := by
  cases o with
  | none =>
    have : (tx.Inputs.mapIdx fun j i => if j = k then putScript none i else i) = tx.Inputs := by
      apply List.ext_getElem <;> simp [putScript]
    rw [this]; rfl
  | some s => rfl

theorem setAll_eq (new : Nat → Option Bytes) (l : List Nat) (tx : Transaction) : setAll new l tx = signedAt new l tx := by
  induction l generalizing tx with
  | nil =>
    have : (tx.Inputs.mapIdx fun j i => i) = tx.Inputs := by
      apply List.ext_getElem <;> simp
    simp [setAll, signedAt, this]
  | cons k l ih =>
    have hstep : setAll new (k :: l) tx = setAll new l (setUnlocking tx k (new k)) := rfl
    rw [hstep, ih, setUnlocking_inputs]
    unfold signedAt
    simp only
    congr 1
    apply List.ext_getElem
    · simp
    · intro n h1 h2
      simp only [List.getElem_mapIdx, List.mem_cons]
      by_cases hn : n = k
      · subst hn
        simp only [true_or, if_true]
        by_cases hl : n ∈ l
        · rw [if_pos hl, putScript_twice]
        · rw [if_neg hl]
      · simp only [hn, false_or, if_false]

/-- Signing the positions of `l` in that order, as the body of `SignAuto` does it. -/
def signInOrder (H : HashFns) (is : InternalSigner) : List Nat → Transaction → Res Transaction
  | [], tx => .ok tx
  | k :: l, tx => is.signAutoStep H k tx >>= signInOrder H is l

theorem readable_same {tx tx' : Transaction} (h : SameButUnlocking tx tx') (hr : ReadableScripts tx) : ReadableScripts tx' := by
  intro i hi
  obtain ⟨k, hk⟩ := List.mem_iff_getElem?.mp hi
  rcases input_same h k with ⟨_, h2⟩ | ⟨j, i', h1, h2, _, e⟩
  · rw [hk] at h2; cases h2
  · rw [hk] at h2; injection h2 with h2; subst h2
    rw [← e]; exact hr j (List.mem_of_getElem? h1)

theorem signInOrder_eq (H : HashFns) (is : InternalSigner) (hz : SignerSized is) (hp : ∀ d, is.sign d ≠ .panic) (tx : Transaction) (hs : Sized tx)
    (hr : ReadableScripts tx) (l : List Nat) :
    signInOrder H is l tx = .ok (signedAt (newScript H is tx) l tx) := by
  rw [← setAll_eq]
  suffices h : ∀ l t, SameButUnlocking tx t → signInOrder H is l t = .ok (setAll (newScript H is tx) l t) from h l tx (SameButUnlocking.refl tx)
  intro l
  induction l with
  | nil => intro t _; rfl
  | cons k l ih =>
    intro t ht
    simp only [signInOrder]
    rw [step_eq H is hz hp t (sized_same hs ht) (readable_same ht hr), newScript_same H is hs ht, Res.ok_bind]
    exact ih _ (ht.trans (setUnlocking_same _ _ _))

theorem signAutoLoop_eq (H : HashFns) (is : InternalSigner) (n i : Nat) (tx : Transaction) :
    is.signAutoLoop H n i tx = signInOrder H is (List.range' i n) tx := by
  induction n generalizing i tx with
  | zero => rfl
  | succ n ih =>
    simp only [InternalSigner.signAutoLoop, List.range'_succ, signInOrder]
    congr 1
    funext t
    exact ih _ _

/-! ## C48 -/

/-- C48: for every transaction whose previous scripts can be read, `SignAuto` succeeds; it leaves version, locktime and outputs, leaves every input that is not
selected, and changes a selected input exactly as signing it alone in the *original* transaction would (leaving it, if that fails). -/
theorem C48_signAuto (H : HashFns) (is : InternalSigner) (hz : SignerSized is) (hp : ∀ d, is.sign d ≠ .panic) (tx : Transaction) (hs : Sized tx)
    (hr : ReadableScripts tx) :
    ∃ tx', is.SignAuto H tx = .ok tx' ∧ tx'.Version = tx.Version ∧ tx'.Locktime = tx.Locktime ∧ tx'.Outputs = tx.Outputs ∧
      tx'.Inputs.length = tx.Inputs.length ∧
      ∀ k inp, tx.Inputs[k]? = some inp →
        (¬ Selected (H.ripemd160 (H.sha256 is.pubKey)) inp → tx'.Inputs[k]? = some inp) ∧
        (Selected (H.ripemd160 (H.sha256 is.pubKey)) inp →
          (∀ t, is.Sign H (UInt32.ofNat k) tx = .ok t → tx'.Inputs[k]? = t.Inputs[k]?) ∧
          (∀ e, is.Sign H (UInt32.ofNat k) tx = .err e → tx'.Inputs[k]? = some inp) ∧
          is.Sign H (UInt32.ofNat k) tx ≠ .panic) := by
  classical
  refine ⟨signedAt (newScript H is tx) (List.range' 0 tx.Inputs.length) tx, ?_, rfl, rfl, rfl, by simp [signedAt], ?_⟩
  · unfold InternalSigner.SignAuto
    rw [signAutoLoop_eq, signInOrder_eq H is hz hp tx hs hr]
  · intro k inp hi
    have hlt : k < tx.Inputs.length := (List.getElem?_eq_some_iff.mp hi).1
    have hk : (UInt32.ofNat k).toNat = k := by
      rw [UInt32.toNat_ofNat']; exact Nat.mod_eq_of_lt (by have := hs.1; omega)
    have hmem : k ∈ List.range' 0 tx.Inputs.length := by simp [List.mem_range'_1]; omega
    have hval : (signedAt (newScript H is tx) (List.range' 0 tx.Inputs.length) tx).Inputs[k]? =
        some (putScript (newScript H is tx k) inp) := by
      simp only [signedAt, List.getElem?_mapIdx, hi, Option.map_some, if_pos hmem]
    constructor
    · intro hns
      have : newScript H is tx k = none := by
        unfold newScript; rw [hi]; simp only; rw [if_neg hns]
      rw [hval, this]; rfl
    · intro hsel
      have hnew : newScript H is tx k = (match tx.GetInputSignatureHash H (UInt32.ofNat k) (flagOrDefault is.SigHashFlag) with
          | .ok sh => match is.sign sh.reverse with
            | .ok sig => some (unlocking sig (flagOrDefault is.SigHashFlag) is.pubKey)
            | _ => none
          | _ => none) := by
        unfold newScript; rw [hi]; simp only; rw [if_pos hsel]
      rw [hval, hnew, sign_eq]
      rcases hx : tx.GetInputSignatureHash H (UInt32.ofNat k) (flagOrDefault is.SigHashFlag) with sh | e | _
      · simp only [Res.ok_bind]
        rcases hy : is.sign sh.reverse with sig | e | _
        · simp only [Res.ok_bind]
          rw [newP2PKHUnlocking_eq _ (hz.2 _ _ hy) hz.1, applyUnlocking_eq _ (by omega), hk]
          refine ⟨?_, fun e h => (by cases h), fun h => by cases h⟩
          intro t ht
          injection ht with ht
          subst ht
          simp [withUnlocking, List.getElem?_mapIdx, hi, putScript]
        · exact ⟨fun t h => (by cases h), fun _ _ => rfl, fun h => by cases h⟩
        · exact absurd hy (hp _)
      · exact ⟨fun t h => (by cases h), fun _ _ => rfl, fun h => by cases h⟩
      · exfalso
        have := (C46_outcome H tx hs (UInt32.ofNat k) (flagOrDefault is.SigHashFlag)).1.mp hx
        omega

/-- Calling `Transaction.Sign` for the selected inputs among the positions `l`, in that order, ignoring errors. -/
noncomputable def signSelected (H : HashFns) (is : InternalSigner) (l : List Nat) (tx : Transaction) : Res Transaction := by
  classical
  exact l.foldlM (fun t k => match t.Inputs[k]? with
    | none => .ok t
    | some i => if Selected (H.ripemd160 (H.sha256 is.pubKey)) i then (t.Sign H (UInt32.ofNat k) is).bind (fun r => .ok r.1) else .ok t) tx

/-- C48, order: signing the selected inputs one by one in any order, with any repetitions, gives the result of `SignAuto`. -/
theorem C48_order (H : HashFns) (is : InternalSigner) (hz : SignerSized is) (hp : ∀ d, is.sign d ≠ .panic) (tx : Transaction) (hs : Sized tx)
    (hr : ReadableScripts tx) (l : List Nat) (hl : ∀ k, k ∈ l ↔ k < tx.Inputs.length) :
    signSelected H is l tx = is.SignAuto H tx := by
  classical
  have hA : is.SignAuto H tx = .ok (signedAt (newScript H is tx) l tx) := by
    unfold InternalSigner.SignAuto
    rw [signAutoLoop_eq, signInOrder_eq H is hz hp tx hs hr]
    congr 1
    unfold signedAt
    congr 1
    apply List.ext_getElem (by simp)
    intro n h1 h2
    simp only [List.length_mapIdx] at h1
    simp only [List.getElem_mapIdx]
    rw [if_pos ((hl n).mpr h1), if_pos (by simp [List.mem_range'_1]; omega)]
  have hstep : ∀ t k, SameButUnlocking tx t → (match t.Inputs[k]? with
      | none => Res.ok t
      | some i => if Selected (H.ripemd160 (H.sha256 is.pubKey)) i then (t.Sign H (UInt32.ofNat k) is).bind (fun r => .ok r.1) else .ok t) = is.signAutoStep H k t := by
    intro t k ht
    have hst := sized_same hs ht
    have hrt := readable_same ht hr
    rcases hi : t.Inputs[k]? with _ | i
    · simp only [InternalSigner.signAutoStep, hi]
    · simp only
      by_cases hsel : Selected (H.ripemd160 (H.sha256 is.pubKey)) i
      · rw [if_pos hsel]
        have hg : GetPublicKeyHash i.PreviousTxScript = .ok (H.ripemd160 (H.sha256 is.pubKey)) := (getPublicKeyHash_ok_iff _ _).mpr hsel.2
        simp only [InternalSigner.signAutoStep, hi, hg, Hash160, Sha256, Ripemd160, if_true, Transaction.Sign]
        rcases is.Sign H (UInt32.ofNat k) t with x | e | _ <;> rfl
      · rw [if_neg hsel, step_eq H is hz hp t hst hrt]
        have : newScript H is t k = none := by
          unfold newScript; rw [hi]; simp only; rw [if_neg hsel]
        rw [this]; rfl
  rw [hA, ← signInOrder_eq H is hz hp tx hs hr l]
  suffices h : ∀ l t, SameButUnlocking tx t → signSelected H is l t = signInOrder H is l t from h l tx (SameButUnlocking.refl tx)
  intro l
  induction l with
  | nil => intro t _; rfl
  | cons k l ih =>
    intro t ht
    have e : signSelected H is (k :: l) t = is.signAutoStep H k t >>= signSelected H is l := by
      unfold signSelected
      rw [List.foldlM_cons]
      exact congrArg (· >>= _) (hstep t k ht)
    rw [e]
    simp only [signInOrder]
    rw [step_eq H is hz hp t (sized_same hs ht) (readable_same ht hr), Res.ok_bind, Res.ok_bind]
    exact ih _ (ht.trans (setUnlocking_same _ _ _))

/-- C48, idempotence: signing again with the same (deterministic) signer changes nothing. -/
theorem C48_again (H : HashFns) (is : InternalSigner) (hz : SignerSized is) (hp : ∀ d, is.sign d ≠ .panic) (tx : Transaction) (hs : Sized tx)
    (hr : ReadableScripts tx) (tx' : Transaction) (h : is.SignAuto H tx = .ok tx') : is.SignAuto H tx' = .ok tx' := by
  unfold InternalSigner.SignAuto at h ⊢
  rw [signAutoLoop_eq, signInOrder_eq H is hz hp tx hs hr] at h
  injection h with h
  subst h
  have hsame : SameButUnlocking tx (signedAt (newScript H is tx) (List.range' 0 tx.Inputs.length) tx) := by
    rw [← setAll_eq]; exact setAll_same _ _ _
  rw [signAutoLoop_eq, signInOrder_eq H is hz hp _ (sized_same hs hsame) (readable_same hsame hr)]
  congr 1
  have e : newScript H is (signedAt (newScript H is tx) (List.range' 0 tx.Inputs.length) tx) = newScript H is tx :=
    funext fun k => newScript_same H is hs hsame k
  rw [e]
  unfold signedAt
  simp only
  congr 1
  apply List.ext_getElem (by simp)
  intro n h1 h2
  simp only [List.length_mapIdx] at h1 h2
  simp only [List.getElem_mapIdx, List.length_mapIdx, if_pos (show n ∈ List.range' 0 tx.Inputs.length by simp [List.mem_range'_1]; omega)]
  rw [putScript_twice]

/-- C48, exact panic domain of `SignAuto` for a signer that does not panic: some input's previous script makes the key-hash extraction panic. -/
theorem C48_panic_iff (H : HashFns) (is : InternalSigner) (hz : SignerSized is) (hp : ∀ d, is.sign d ≠ .panic) (tx : Transaction) (hs : Sized tx) :
    is.SignAuto H tx = .panic ↔ ∃ i ∈ tx.Inputs, ∃ s, i.PreviousTxScript = some s ∧
      (s = [0x76] ∨ ∃ r, s = 0x76 :: 0xa9 :: r ∧ (r = [] ∨ DecodeParts r = .panic)) := by
  have hdom : (∃ i ∈ tx.Inputs, GetPublicKeyHash i.PreviousTxScript = .panic) ↔ ∃ i ∈ tx.Inputs, ∃ s, i.PreviousTxScript = some s ∧
      (s = [0x76] ∨ ∃ r, s = 0x76 :: 0xa9 :: r ∧ (r = [] ∨ DecodeParts r = .panic)) := by
    constructor
    · rintro ⟨i, hi, h⟩
      rcases hs : i.PreviousTxScript with _ | s
      · rw [hs] at h; exact absurd h (C20_panic_domains []).2.2.2.2.2
      · rw [hs] at h; exact ⟨i, hi, s, hs, (C20_panic_domains s).2.2.2.2.1.mp h⟩
    · rintro ⟨i, hi, s, hs, h⟩
      exact ⟨i, hi, by rw [hs]; exact (C20_panic_domains s).2.2.2.2.1.mpr h⟩
  rw [← hdom]
  constructor
  · intro h
    by_contra hcon
    have hr : ReadableScripts tx := fun i hi hp => hcon ⟨i, hi, hp⟩
    obtain ⟨t, ht, -⟩ := C48_signAuto H is hz hp tx hs hr
    rw [ht] at h; cases h
  · rintro ⟨i, hi, hpan⟩
    obtain ⟨k, hk⟩ := List.mem_iff_getElem?.mp hi
    have hlt : k < tx.Inputs.length := (List.getElem?_eq_some_iff.mp hk).1
    unfold InternalSigner.SignAuto
    rw [signAutoLoop_eq]
    have hmem : k ∈ List.range' 0 tx.Inputs.length := by simp [List.mem_range'_1]; omega
    have main : ∀ l t, (∃ j, t.Inputs[k]? = some j ∧ GetPublicKeyHash j.PreviousTxScript = .panic) → k ∈ l → (∀ n ∈ l, n < t.Inputs.length) → Sized t →
        signInOrder H is l t = .panic := by
      intro l
      induction l with
      | nil => intro t _ hm; cases hm
      | cons n l ih =>
        rintro t ⟨j, hj, hjp⟩ hm hb hst
        simp only [signInOrder]
        by_cases hn : n = k
        · subst hn
          have : is.signAutoStep H n t = .panic := by
            simp only [InternalSigner.signAutoStep, hj, hjp]
          rw [this]; rfl
        · have hml : k ∈ l := by
            rcases List.mem_cons.mp hm with h | h
            · exact absurd h.symm hn
            · exact h
          have hlt : n < t.Inputs.length := hb n (by simp)
          rcases hx : is.signAutoStep H n t with t' | e | _
          · rw [Res.ok_bind]
            -- the step changes at most unlocking scripts
            have hsame : SameButUnlocking t t' := by
              unfold InternalSigner.signAutoStep at hx
              rw [List.getElem?_eq_getElem hlt] at hx
              simp only at hx
              split at hx
              · cases hx
              · split_ifs at hx
                · rcases hsn : is.Sign H (UInt32.ofNat n) t with x | e | _ <;> rw [hsn] at hx
                  · injection hx with hx; subst hx
                    obtain ⟨_, _, _, _, _, _, _, rfl⟩ := C47_sign_ok H is hz t hst _ _ hsn
                    exact withUnlocking_same _ _ _
                  · injection hx with hx; subst hx; exact SameButUnlocking.refl _
                  · cases hx
                · injection hx with hx; subst hx; exact SameButUnlocking.refl _
            refine ih t' ?_ hml ?_ (sized_same hst hsame)
            · rcases input_same hsame k with ⟨h1, _⟩ | ⟨a, b, h1, h2, _, e⟩
              · rw [hj] at h1; cases h1
              · rw [hj] at h1; injection h1 with h1; subst h1
                exact ⟨b, h2, by rw [← e]; exact hjp⟩
            · intro m hm'
              have hlen := congrArg List.length hsame.2.2.2
              simp only [List.length_map] at hlen
              have := hb m (by simp [hm'])
              omega
          · exfalso
            unfold InternalSigner.signAutoStep at hx
            rw [List.getElem?_eq_getElem hlt] at hx
            simp only at hx
            split at hx
            · cases hx
            · split_ifs at hx
              rcases hsn : is.Sign H (UInt32.ofNat n) t with x | e | _ <;> rw [hsn] at hx <;> cases hx
          · rfl
    exact main _ tx ⟨i, hk, hpan⟩ hmem (by intro n hn; simp only [List.mem_range'_1] at hn; omega) hs

/-- A transaction with one input the toy key signs, one it does not (no txid), and one that pays to another hash. -/
def exMany : Transaction :=
  { exSpend with Inputs := [
      { PreviousTxID := List.replicate 64 49, PreviousTxOutIndex := 1, PreviousTxSatoshis := 5,
        PreviousTxScript := some (p2pkh (toyH.ripemd160 (toyH.sha256 toySigner.pubKey))), UnlockingScript := none, SequenceNumber := 1 },
      { PreviousTxID := [], PreviousTxOutIndex := 1, PreviousTxSatoshis := 5,
        PreviousTxScript := some (p2pkh (toyH.ripemd160 (toyH.sha256 toySigner.pubKey))), UnlockingScript := none, SequenceNumber := 1 },
      { PreviousTxID := List.replicate 64 50, PreviousTxOutIndex := 1, PreviousTxSatoshis := 5,
        PreviousTxScript := some (p2pkh (List.replicate 20 9)), UnlockingScript := none, SequenceNumber := 1 }] }

example : Selected (toyH.ripemd160 (toyH.sha256 toySigner.pubKey)) (exMany.Inputs.getD 0 Input.New) ∧ ReadableScripts exMany ∧
    (∀ d, toySigner.sign d ≠ .panic) := by
  refine ⟨selected_p2pkh _ (toyH.ripemd160_length _) _ (by decide +kernel) rfl, ?_, fun d h => by cases h⟩
  unfold ReadableScripts
  decide +kernel

/-- C48, the boundary of "pays to the key's hash": a script that is not a pay-to-public-key-hash script but begins like one is signed too. -/
theorem C48_violation_witness (h : Bytes) (hl : h.length = 20) : BeginsPayTo h ([0x76, 0xa9, 0x14] ++ h ++ [0x6a]) ∧
    IsP2PKH ([0x76, 0xa9, 0x14] ++ h ++ [0x6a]) = false := by
  constructor
  · refine ⟨.direct h, [.op 0x6a], ?_, ?_, rfl⟩
    · simp [bytesOf, Token.bytes, Token.header, Token.data, hl]
    · simp [Token.Valid, hl, Decodable]
  · rw [Bool.eq_false_iff, Ne, C14_isP2PKH_iff]
    rintro ⟨h', hl', e⟩
    have := congrArg List.length e
    simp [hl, hl'] at this

/-! ## C49 -/

/-- Edits of unlocking scripts: replace one directly, sign one input, sign all. -/
inductive Edit where
  | apply (idx : UInt32) (s : Script)
  | sign (idx : UInt32) (is : InternalSigner)
  | signAuto (is : InternalSigner)

/-- The transaction after an edit through the API (errors leave it; `none` is a panic). -/
def Edit.run (H : HashFns) (tx : Transaction) : Edit → Option Transaction
  | .apply idx s => match tx.ApplyUnlockingScript idx s with | .ok t => some t | .err _ => some tx | .panic => none
  | .sign idx is => match tx.Sign H idx is with | .ok (t, _) => some t | .err _ => some tx | .panic => none
  | .signAuto is => match tx.SignAuto H is with | .ok (t, _) => some t | .err _ => some tx | .panic => none

/-- A history of edits. -/
def runEdits (H : HashFns) (tx : Transaction) (es : List Edit) : Option Transaction := es.foldlM (Edit.run H) tx

theorem apply_same {tx tx' : Transaction} {idx : UInt32} {s : Script} (h : tx.ApplyUnlockingScript idx s = .ok tx') : SameButUnlocking tx tx' := by
  by_cases hl : idx.toNat < tx.Inputs.length
  · rw [applyUnlocking_eq s hl] at h; injection h with h; subst h; exact withUnlocking_same _ _ _
  · simp [ApplyUnlockingScript, index, List.getElem?_eq_none (Nat.le_of_not_lt hl)] at h

theorem sign_same {H : HashFns} {is : InternalSigner} {tx tx' : Transaction} {idx : UInt32} (h : is.Sign H idx tx = .ok tx') : SameButUnlocking tx tx' := by
  rw [sign_eq] at h
  obtain ⟨sh, -, h⟩ := Res.bind_eq_ok.mp h
  obtain ⟨sig, -, h⟩ := Res.bind_eq_ok.mp h
  exact apply_same h

theorem autoStep_same {H : HashFns} {is : InternalSigner} {tx tx' : Transaction} {k : Nat} (h : is.signAutoStep H k tx = .ok tx') : SameButUnlocking tx tx' := by
  unfold InternalSigner.signAutoStep at h
  split at h
  · injection h with h; subst h; exact SameButUnlocking.refl _
  · split at h
    · cases h
    · dsimp only at h
      split_ifs at h
      · rcases hsn : is.Sign H (UInt32.ofNat k) tx with x | e | _ <;> rw [hsn] at h
        · injection h with h; subst h; exact sign_same hsn
        · injection h with h; subst h; exact SameButUnlocking.refl _
        · cases h
      · injection h with h; subst h; exact SameButUnlocking.refl _

theorem auto_same {H : HashFns} {is : InternalSigner} {tx tx' : Transaction} (h : is.SignAuto H tx = .ok tx') : SameButUnlocking tx tx' := by
  unfold InternalSigner.SignAuto at h
  rw [signAutoLoop_eq] at h
  generalize List.range' 0 tx.Inputs.length = l at h
  induction l generalizing tx with
  | nil => injection h with h; subst h; exact SameButUnlocking.refl _
  | cons k l ih =>
    obtain ⟨t, ht, h⟩ := Res.bind_eq_ok.mp h
    exact (autoStep_same ht).trans (ih h)

theorem edit_same {H : HashFns} {tx tx' : Transaction} {e : Edit} (h : e.run H tx = some tx') : SameButUnlocking tx tx' := by
  cases e with
  | apply idx s =>
    simp only [Edit.run] at h
    rcases hx : tx.ApplyUnlockingScript idx s with t | e | _ <;> rw [hx] at h
    · injection h with h; subst h; exact apply_same hx
    · injection h with h; subst h; exact SameButUnlocking.refl _
    · cases h
  | sign idx is =>
    simp only [Edit.run, Transaction.Sign] at h
    rcases hx : is.Sign H idx tx with t | e | _ <;> rw [hx] at h
    · injection h with h; subst h; exact sign_same hx
    · injection h with h; subst h; exact SameButUnlocking.refl _
    · cases h
  | signAuto is =>
    simp only [Edit.run, Transaction.SignAuto] at h
    rcases hx : is.SignAuto H tx with t | e | _ <;> rw [hx] at h
    · injection h with h; subst h; exact auto_same hx
    · injection h with h; subst h; exact SameButUnlocking.refl _
    · cases h

theorem edits_same {H : HashFns} {tx tx' : Transaction} {es : List Edit} (h : runEdits H tx es = some tx') : SameButUnlocking tx tx' := by
  induction es generalizing tx with
  | nil => simp [runEdits] at h; subst h; exact SameButUnlocking.refl _
  | cons e es ih =>
    simp only [runEdits, List.foldlM_cons, Option.bind_eq_bind, Option.bind_eq_some_iff] at h
    obtain ⟨t, h1, h2⟩ := h
    exact (edit_same h1).trans (ih h2)

/-- C49: no history of edits, by any keys and in any order, changes the signature hash of any input under any flag, nor anything but unlocking scripts. -/
theorem C49_history (H : HashFns) (tx tx' : Transaction) (hs : Sized tx) (es : List Edit) (h : runEdits H tx es = some tx') :
    SameButUnlocking tx tx' ∧ ∀ idx flag, tx'.GetInputSignatureHash H idx flag = tx.GetInputSignatureHash H idx flag :=
  ⟨edits_same h, fun idx flag => sighash_same H hs (edits_same h) idx flag⟩

/-- C49, signatures stay valid: a signature put on an input by `Sign` verifies for that input's signature hash after any further history. -/
theorem C49_signature_stays (H : HashFns) (is : InternalSigner) (hz : SignerSized is) (verify : Bytes → Bytes → Prop)
    (hv : ∀ d s, is.sign d = .ok s → verify d s) (tx tx1 tx2 : Transaction) (hs : Sized tx) (idx : UInt32) (h1 : is.Sign H idx tx = .ok tx1)
    (es : List Edit) (h2 : runEdits H tx1 es = some tx2) :
    ∃ sig inp1 hash, tx1.Inputs[idx.toNat]? = some inp1 ∧ inp1.UnlockingScript = some (push (sig ++ [flagOrDefault is.SigHashFlag]) ++ push is.pubKey) ∧
      tx2.GetInputSignatureHash H idx (flagOrDefault is.SigHashFlag) = .ok hash ∧ verify hash.reverse sig := by
  obtain ⟨sig, inp1, hash, a, b, c, d⟩ := C47_verifies H is hz verify hv tx hs idx tx1 h1
  refine ⟨sig, inp1, hash, a, b, ?_, d⟩
  rw [(C49_history H tx1 tx2 (sized_same hs (sign_same h1)) es h2).2, c]

/-- C49, other inputs' unlocking scripts are left alone by replacing or signing one input. -/
theorem C49_locality (H : HashFns) (tx tx' : Transaction) (idx : UInt32) (k : Nat) (hk : k ≠ idx.toNat)
    (h : (∃ s, tx.ApplyUnlockingScript idx s = .ok tx') ∨ (∃ is : InternalSigner, is.Sign H idx tx = .ok tx')) : tx'.Inputs[k]? = tx.Inputs[k]? := by
  have key : ∀ s, tx.ApplyUnlockingScript idx s = .ok tx' → tx'.Inputs[k]? = tx.Inputs[k]? := by
    intro s h
    unfold ApplyUnlockingScript at h
    obtain ⟨i, hi, h⟩ := Res.bind_eq_ok.mp h
    injection h with h
    subst h
    simp only
    rw [List.getElem?_set_ne (fun e => hk e.symm)]
  rcases h with ⟨s, h⟩ | ⟨is, h⟩
  · exact key s h
  · rw [sign_eq] at h
    obtain ⟨sh, -, h⟩ := Res.bind_eq_ok.mp h
    obtain ⟨sig, -, h⟩ := Res.bind_eq_ok.mp h
    exact key _ h

/-- `ApplyUnlockingScript`, exact outcome: it sets the script of an existing input and otherwise panics. -/
theorem C49_apply (tx : Transaction) (idx : UInt32) (s : Script) :
    (idx.toNat < tx.Inputs.length → tx.ApplyUnlockingScript idx s = .ok (withUnlocking tx idx.toNat s)) ∧
    (tx.Inputs.length ≤ idx.toNat → tx.ApplyUnlockingScript idx s = .panic) := by
  refine ⟨applyUnlocking_eq s, fun h => ?_⟩
  simp [ApplyUnlockingScript, index, List.getElem?_eq_none h]

/-- C49 is violated at indices without input: the call panics, it does not report the error its code intends. -/
theorem C49_violation (tx : Transaction) (idx : UInt32) (s : Script) (h : tx.Inputs.length ≤ idx.toNat) :
    ¬ (tx.ApplyUnlockingScript idx s).isErr ∧ tx.ApplyUnlockingScript idx s = .panic := by
  have := (C49_apply tx idx s).2 h
  simp [this]

example : ∃ t, runEdits toyH exMany [.apply 1 [7], .sign 2 toySigner, .signAuto toySigner, .apply 1 []] = some t ∧ t ≠ exMany := by
  decide +kernel

end Verif.Props
