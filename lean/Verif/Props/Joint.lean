import Verif.Props.Ledger
import Verif.Props.Handover
import Verif.Props.Spendable
/-!
# C121: a payment that several parties make together
-/
namespace Verif.Props
open Verif Verif.Spec

/-! ## Who signs, and in which order -/

/-- A signer that does not crash, with sizes for which a push exists. -/
def SoundSigner (is : InternalSigner) : Prop := SignerSized is ∧ ∀ d, is.sign d ≠ .panic

theorem GoodSigner.sound {verify : Bytes → Bytes → Bytes → Bool} {is : InternalSigner} (h : GoodSigner verify is) : SoundSigner is :=
  ⟨h.1, fun d => by obtain ⟨s, e, _⟩ := h.2.2 d; rw [e]; simp⟩

/-- The transaction after one key has signed what it can. -/
noncomputable def signedBy (H : HashFns) (is : InternalSigner) (tx : Transaction) : Transaction :=
  { tx with Inputs := tx.Inputs.mapIdx fun k i => putScript (newScript H is tx k) i }

theorem signAuto_eq (H : HashFns) (is : InternalSigner) (hg : SoundSigner is) (tx : Transaction) (hs : Sized tx) (hr : ReadableScripts tx) : is.SignAuto H tx = .ok (signedBy H is tx) := by
  unfold InternalSigner.SignAuto
  rw [signAutoLoop_eq, signInOrder_eq H is hg.1 hg.2 tx hs hr]
  congr 1
  unfold signedAt signedBy
  congr 1
  apply List.ext_getElem
  · simp
  · intro n h1 h2
    simp only [List.getElem_mapIdx]
    rw [if_pos]
    simp at h1
    simp [List.mem_range'_1]; omega

theorem signedBy_same (H : HashFns) (is : InternalSigner) (tx : Transaction) : SameButUnlocking tx (signedBy H is tx) := by
  refine ⟨rfl, rfl, rfl, ?_⟩
  unfold signedBy
  apply List.ext_getElem
  · simp
  · intro n h1 h2
    simp only [List.getElem_map, List.getElem_mapIdx]
    cases newScript H is tx n <;> rfl

/-- A previous script begins like a payment to one key hash only. -/
theorem beginsPayTo_unique {g h s : Bytes} (hg : BeginsPayTo g s) (hh : BeginsPayTo h s) : g = h := by
  have e1 := (getPublicKeyHash_ok_iff (some s) g).mpr ⟨s, rfl, hg⟩
  have e2 := (getPublicKeyHash_ok_iff (some s) h).mpr ⟨s, rfl, hh⟩
  rw [e1] at e2
  injection e2

theorem newScript_none (H : HashFns) (is : InternalSigner) (tx : Transaction) (k : Nat) (h : ∀ i, tx.Inputs[k]? = some i → ¬ Selected (H.ripemd160 (H.sha256 is.pubKey)) i) : newScript H is tx k = none := by
  classical
  unfold newScript
  rcases hi : tx.Inputs[k]? with _ | i
  · rfl
  · dsimp only
    rw [if_neg (h i hi)]

/-- Two keys with different hashes sign in either order. -/
theorem signedBy_comm (H : HashFns) (a b : InternalSigner) (hne : H.ripemd160 (H.sha256 a.pubKey) ≠ H.ripemd160 (H.sha256 b.pubKey)) (tx : Transaction) (hs : Sized tx) :
    signedBy H b (signedBy H a tx) = signedBy H a (signedBy H b tx) := by
  have ea : ∀ k, newScript H a (signedBy H b tx) k = newScript H a tx k := newScript_same H a hs (signedBy_same H b tx)
  have eb : ∀ k, newScript H b (signedBy H a tx) k = newScript H b tx k := newScript_same H b hs (signedBy_same H a tx)
  have hnone : ∀ k, newScript H a tx k = none ∨ newScript H b tx k = none := by
    intro k
    rcases hi : tx.Inputs[k]? with _ | i
    · left; exact newScript_none H a tx k (by rw [hi]; simp)
    · by_cases c : Selected (H.ripemd160 (H.sha256 a.pubKey)) i
      · right
        refine newScript_none H b tx k fun j hj => ?_
        rw [hi] at hj; injection hj with hj; subst hj
        rintro ⟨_, s, e1, e2⟩
        obtain ⟨_, s', e1', e2'⟩ := c
        rw [e1] at e1'; injection e1' with e1'; subst e1'
        exact hne (beginsPayTo_unique e2' e2)
      · left
        refine newScript_none H a tx k fun j hj => ?_
        rw [hi] at hj; injection hj with hj; subst hj
        exact c
  have : ∀ k i, putScript (newScript H b tx k) (putScript (newScript H a tx k) i) = putScript (newScript H a tx k) (putScript (newScript H b tx k) i) := by
    intro k i
    rcases hnone k with e | e <;> rw [e] <;> rfl
  show ({ tx with Inputs := (signedBy H a tx).Inputs.mapIdx fun k i => putScript (newScript H b (signedBy H a tx) k) i } : Transaction) =
    { tx with Inputs := (signedBy H b tx).Inputs.mapIdx fun k i => putScript (newScript H a (signedBy H b tx) k) i }
  congr 1
  simp only [ea, eb]
  unfold signedBy
  simp only [List.mapIdx_mapIdx]
  congr 1
  funext k i
  exact this k i

theorem signWithAll_cons (H : HashFns) (is : InternalSigner) (hg : SoundSigner is) (l : List InternalSigner) (tx : Transaction) (hs : Sized tx) (hr : ReadableScripts tx) :
    signWithAll H (is :: l) tx = signWithAll H l (signedBy H is tx) := by
  unfold signWithAll
  rw [List.foldlM_cons, signAuto_eq H is hg tx hs hr]
  rfl

/-- Keys with different hashes sign in any order. -/
theorem signWithAll_perm (H : HashFns) {l l' : List InternalSigner} (hp : l.Perm l') : (∀ is ∈ l, SoundSigner is) → (l.map fun is => H.ripemd160 (H.sha256 is.pubKey)).Nodup →
    ∀ tx, Sized tx → ReadableScripts tx → signWithAll H l tx = signWithAll H l' tx := by
  induction hp with
  | nil => intros; rfl
  | cons is hp ih =>
    intro hg hn tx hs hr
    have h1 := hg is (by simp)
    rw [signWithAll_cons H is h1 _ tx hs hr, signWithAll_cons H is h1 _ tx hs hr]
    rw [List.map_cons, List.nodup_cons] at hn
    exact ih (fun x hx => hg x (by simp [hx])) hn.2 _ (sized_same hs (signedBy_same H is tx)) (readable_same (signedBy_same H is tx) hr)
  | swap a b l =>
    intro hg hn tx hs hr
    have ha := hg a (by simp)
    have hb := hg b (by simp)
    have sa := signedBy_same H a tx
    have sb := signedBy_same H b tx
    rw [signWithAll_cons H b hb _ tx hs hr, signWithAll_cons H a ha _ _ (sized_same hs sb) (readable_same sb hr),
      signWithAll_cons H a ha _ tx hs hr, signWithAll_cons H b hb _ _ (sized_same hs sa) (readable_same sa hr)]
    rw [signedBy_comm H a b ?_ tx hs]
    simp only [List.map_cons, List.nodup_cons, List.mem_cons, not_or] at hn
    exact fun e => hn.1.1 e.symm
  | trans h1 h2 ih1 ih2 =>
    intro hg hn tx hs hr
    rw [ih1 hg hn tx hs hr]
    exact ih2 (fun x hx => hg x (h1.mem_iff.mpr hx)) ((h1.map _).nodup_iff.mp hn) tx hs hr

/-- What nobody signs stays as it is. -/
theorem unsigned_stays (H : HashFns) : ∀ (l : List InternalSigner) (tx : Transaction), (∀ is ∈ l, SoundSigner is) → Sized tx → ReadableScripts tx →
    ∃ tx', signWithAll H l tx = .ok tx' ∧ SameButUnlocking tx tx' ∧
      ∀ (k : Nat) i, tx.Inputs[k]? = some i → (∀ is ∈ l, ¬ Selected (H.ripemd160 (H.sha256 is.pubKey)) i) → tx'.Inputs[k]? = some i
  | [], tx, _, _, _ => ⟨tx, rfl, SameButUnlocking.refl tx, fun k i h _ => h⟩
  | is :: l, tx, hg, hs, hr => by
    have sm := signedBy_same H is tx
    obtain ⟨tx', h1, h2, h3⟩ := unsigned_stays H l (signedBy H is tx) (fun x hx => hg x (by simp [hx])) (sized_same hs sm) (readable_same sm hr)
    refine ⟨tx', by rw [signWithAll_cons H is (hg is (by simp)) l tx hs hr, h1], sm.trans h2, fun k i hi hn => h3 k i ?_ fun x hx => hn x (by simp [hx])⟩
    simp only [signedBy, List.getElem?_mapIdx, hi, Option.map_some]
    rw [newScript_none H is tx k (fun j hj => by rw [hi] at hj; injection hj with hj; subst hj; exact hn is (by simp))]
    rfl

/-- Nothing without an unlocking script spends a P2PKH output. -/
theorem unsigned_refused (H : HashFns) (verify : Bytes → Bytes → Bytes → Bool) (tx : Transaction) (k : Nat) (h : Bytes) (hl : h.length = 20) (sats : UInt64) (i : Input) (hi : tx.Inputs[k]? = some i)
    (hu : i.UnlockingScript.getD [] = []) : ¬ Accepted H verify tx k (p2pkh h) sats := by
  rw [C83_p2pkh_iff H verify tx k h hl sats]
  rintro ⟨inp, unl, before, item, pub, h1, h2, ⟨us, h3, h4, h5⟩, -⟩
  rw [hi] at h1; injection h1 with h1; subst h1
  rw [h2] at hu
  have hu : unl = [] := hu
  rw [hu] at h3
  cases us with
  | nil => simp at h5
  | cons u us =>
    cases u <;> simp [bytesOf, Token.bytes, Token.header] at h3

/-- The relay of parties that sign everything they can is one process with all the keys. -/
theorem allInOne_auto (H : HashFns) : ∀ (l : List InternalSigner) (tx : Transaction), (∀ is ∈ l, SoundSigner is) → Sized tx → ReadableScripts tx →
    allInOne H (l.map .auto) tx = signWithAll H l tx
  | [], tx, _, _, _ => rfl
  | is :: l, tx, hg, hs, hr => by
    have sm := signedBy_same H is tx
    rw [signWithAll_cons H is (hg is (by simp)) l tx hs hr, ← allInOne_auto H l _ (fun x hx => hg x (by simp [hx])) (sized_same hs sm) (readable_same sm hr)]
    simp only [List.map_cons, allInOne, SignJob.run, Transaction.SignAuto, signAuto_eq H is (hg is (by simp)) tx hs hr, Res.ok_bind]

/-! ## C121 -/

/-- C121: several parties make one payment. The calls spend outputs that pay to keys with the hashes `hashes`, in any mixture; the unsigned transaction goes as bytes from party to party, each puts the previous outputs
back and signs with `SignAuto` what it can. Nothing fails on the way, and a node accepts what the last party has exactly if the calls are payable, the bytes are not too many, the hash is new, and the owner of every
output that is spent was among the parties. Afterwards the node has the outputs that the unsigned transaction pays, and no more those it spends. -/
theorem C121_joint (H : HashFns) (verify : Bytes → Bytes → Bytes → Bool) (parties : List InternalSigner) (hg : ∀ is ∈ parties, GoodSigner verify is) (L : Ledger) (hashes : List Bytes)
    (h20 : ∀ h ∈ hashes, h.length = 20) (calls : List Call) (hc : ∀ c ∈ calls, PaymentCall L hashes c) (hlen : calls.length < 2 ^ 31)
    (hcap : ∀ n tx flags t, applyCalls Transaction.New calls = .ok (tx, flags) → signWithAll H (parties.take n) tx = .ok t → t.ToBytes.length < 2 ^ 62) :
    ∃ tx b, applyCalls Transaction.New calls = .ok (tx, List.replicate calls.length true) ∧ relay H (previousOutputs tx) (parties.map .auto) tx.ToBytes = .ok b ∧
      ((∃ L', NodeAccepts H verify L b L') ↔ Payable calls ∧ b.length ≤ maxTxBytes ∧ (∀ n < 2 ^ 32, L (H.sha256 (H.sha256 b) ++ leBytes 4 n) = none) ∧
        ∀ t v s sats, Call.fromUtxo t v s sats ∈ calls → ∃ is ∈ parties, hexDecodeIgnore s = p2pkh (H.ripemd160 (H.sha256 is.pubKey))) ∧
      ∀ L', NodeAccepts H verify L b L' → L' = L.after (H.sha256 (H.sha256 b)) tx := by
  have hb := built calls (payment_wellFormed hc)
  obtain ⟨tx, htx⟩ : ∃ tx : Transaction, tx = { Transaction.New with Inputs := calls.flatMap Call.ins, Outputs := calls.flatMap Call.outs } := ⟨_, rfl⟩
  rw [← htx] at hb
  have hi1 : tx.Inputs = calls.flatMap Call.ins := by rw [htx]
  have ho1 : tx.Outputs = calls.flatMap Call.outs := by rw [htx]
  have hlock : tx.Locktime = 0 := by rw [htx]; rfl
  obtain ⟨l1, l2⟩ := ins_length calls
  have hpi := payment_inputs hc
  rw [← hi1] at hpi
  have hs : Sized tx := by
    refine ⟨by rw [hi1]; omega, by rw [ho1]; omega, by rw [ho1]; exact payment_outputs hc, ?_⟩
    intro i hi s hsome
    obtain ⟨-, ⟨h, hm, h1, -⟩, -⟩ := hpi i hi
    rw [h1] at hsome
    injection hsome with hsome
    rw [← hsome]; simp [p2pkh, h20 h hm]
  have hrd : ReadableScripts tx := fun i hi hpan => by
    obtain ⟨-, ⟨h, hm, h1, -⟩, -⟩ := hpi i hi
    rw [h1, p2pkh, C14_getPublicKeyHash _ (h20 h hm)] at hpan
    cases hpan
  have hsound : ∀ is ∈ parties, SoundSigner is := fun is h => (hg is h).sound
  obtain ⟨tx', s1, s2, s3⟩ := C70_signed_accepted H verify parties hg tx hs hrd
  obtain ⟨tx'', u1, -, u3⟩ := unsigned_stays H parties tx hsound hs hrd
  rw [s1] at u1
  injection u1 with u1
  subst u1
  have hrel : relay H (previousOutputs tx) (parties.map .auto) tx.ToBytes = .ok tx'.ToBytes := by
    rw [C110_relay H _ tx (fun i hi => (hpi i hi).1), allInOne_auto H parties tx hsound hs hrd, s1]
    · rfl
    · intro n t ht
      rw [← List.map_take, allInOne_auto H _ tx (fun is h => hsound is (List.mem_of_mem_take h)) hs hrd] at ht
      exact hcap n tx _ t hb ht
  have ho' : tx'.Outputs = calls.flatMap Call.outs := by rw [← s2.2.2.1, ho1]
  have hop : tx'.Inputs.map outpoint = calls.flatMap Call.spent := by
    rw [outpoints_same s2, hi1, payment_outpoints L _ calls hc]
  have ht' := txids_same s2 fun i hi => (hpi i hi).1
  have hwo := wire_outpoints tx' ht'
  have hvi : valueIn L (wireTx tx') = (calls.map Call.amountIn).sum := by
    rw [valueIn_eq, hwo, hop, payment_valueIn L _ calls hc]
  have hvo : valueOut (wireTx tx') = (calls.map Call.amountOut).sum := by
    show (tx'.Outputs.map (·.Satoshis.toNat)).sum = _
    rw [ho', payment_valueOut]
  have hmx : maxTxBytes < 2 ^ 62 := by decide
  have hwire : ∀ t, tx'.ToBytes.length ≤ maxTxBytes → IsTx MinCompactSize t tx'.ToBytes → t = wireTx tx' := by
    intro t hl h
    have e1 := (C35_accepts_iff tx'.ToBytes [] (by simp; omega) t).mpr (isTx_mono h)
    have e2 := C33_parse_serialise tx' ht' [] (by simp; omega)
    rw [e1] at e2
    injection e2
  refine ⟨tx, tx'.ToBytes, hb, hrel, ⟨?_, ?_⟩, ?_⟩
  · rintro ⟨L', h1, h2, t, h3, h4, -⟩
    have := hwire t h1 h3
    subst this
    refine ⟨⟨?_, ?_, ?_, ?_, ?_⟩, h1, h2, ?_⟩
    · by_contra hno
      apply h4.inputs
      rw [← List.map_eq_nil_iff (f := outpoint), hwo, hop, List.flatMap_eq_nil_iff]
      intro c hcm
      by_contra hne
      exact hno ⟨c, hcm, hne⟩
    · by_contra hno
      apply h4.outputs
      show tx'.Outputs = []
      rw [ho', List.flatMap_eq_nil_iff]
      intro c hcm
      by_contra hne
      exact hno ⟨c, hcm, hne⟩
    · have := h4.distinct
      rwa [hwo, hop] at this
    · have := h4.range.1
      rwa [hvi] at this
    · have := h4.funded
      rwa [hvi, hvo] at this
    · intro t v s sats hm
      by_contra hno
      obtain ⟨hid, h, hh, hx, e1, e2⟩ := hc _ hm
      have hmem : ({ PreviousTxID := t, PreviousTxOutIndex := v, PreviousTxSatoshis := sats, PreviousTxScript := some (hexDecodeIgnore s), UnlockingScript := none, SequenceNumber := 0xffffffff } : Input) ∈ tx.Inputs := by
        rw [hi1]
        exact List.mem_flatMap.mpr ⟨_, hm, by simp [Call.ins]⟩
      obtain ⟨k, hk⟩ := List.mem_iff_getElem?.mp hmem
      have hst := u3 k _ hk (by
        rintro is his ⟨_, s', q1, q2⟩
        injection q1 with q1
        subst q1
        rw [e1] at q2
        exact hno ⟨is, his, by rw [e1, beginsPayTo_p2pkh (h20 h hh) q2]⟩)
      have hw : (wireTx tx').Inputs[k]? = some (wireInput { PreviousTxID := t, PreviousTxOutIndex := v, PreviousTxSatoshis := sats, PreviousTxScript := some (hexDecodeIgnore s), UnlockingScript := none, SequenceNumber := 0xffffffff }) := by
        simp only [wireTx, List.getElem?_map, hst, Option.map_some]
      obtain ⟨c, hL, hacc⟩ := h4.spends k _ hw
      rw [wireInput_outpoint _ hid] at hL
      have e3 : L (outpointOf t v) = some c := hL
      rw [e2] at e3
      injection e3 with e3
      subst e3
      exact unsigned_refused H verify _ k h (h20 h hh) _ _ hw rfl hacc
  · rintro ⟨⟨p1, p2, p3, p4, p5⟩, hlenb, hfresh, hown⟩
    refine ⟨_, hlenb, hfresh, wireTx tx', tx_toBytes_isTx tx' ht' (by omega), ⟨?_, ?_, ?_, ?_, ?_, ?_, Or.inl ?_⟩, rfl⟩
    · obtain ⟨c, hm, hne⟩ := p1
      intro e
      have : (wireTx tx').Inputs.map outpoint = [] := by rw [e]; rfl
      rw [hwo, hop] at this
      exact hne (List.flatMap_eq_nil_iff.mp this c hm)
    · obtain ⟨c, hm, hne⟩ := p2
      show tx'.Outputs ≠ []
      rw [ho']
      intro e
      exact hne (List.flatMap_eq_nil_iff.mp e c hm)
    · rw [hwo, hop]; exact p3
    · intro k inp hk
      simp only [wireTx, List.getElem?_map, Option.map_eq_some_iff] at hk
      obtain ⟨i', hk', rfl⟩ := hk
      have hlt : k < tx.Inputs.length := by
        have e1 := (List.getElem?_eq_some_iff.mp hk').1
        have := congrArg List.length s2.2.2.2
        simp only [List.length_map] at this
        omega
      obtain ⟨i, hki⟩ : ∃ i, tx.Inputs[k]? = some i := ⟨_, List.getElem?_eq_getElem hlt⟩
      obtain ⟨i'', e1, e2, e3, e4, e5, e6⟩ := input_same_full s2 k i hki
      rw [hk'] at e1; injection e1 with e1; subst e1
      obtain ⟨hid, ⟨h, hm, hps, hL⟩, -⟩ := hpi i (List.mem_of_getElem? hki)
      obtain ⟨is, his, hh⟩ : ∃ is ∈ parties, p2pkh h = p2pkh (H.ripemd160 (H.sha256 is.pubKey)) := by
        have him := List.mem_of_getElem? hki
        rw [hi1] at him
        obtain ⟨c, hcm, hic⟩ := List.mem_flatMap.mp him
        cases c with
        | fromUtxo t v s sats =>
          obtain ⟨is, his, e⟩ := hown t v s sats hcm
          simp only [Call.ins, List.mem_singleton] at hic
          subst hic
          injection hps with hps
          exact ⟨is, his, by rw [← hps, e]⟩
        | payTo a x => simp [Call.ins] at hic
        | addOutput o => simp [Call.ins] at hic
        | addInput j => exact absurd (hc _ hcm) id
      rw [hh] at hps hL
      refine ⟨⟨i.PreviousTxSatoshis, p2pkh (H.ripemd160 (H.sha256 is.pubKey))⟩, ?_, accepted_wire H verify tx' ht' k _ _ (s3 is his k i hki ?_ hps)⟩
      · rw [wireInput_outpoint i' (ht' i' (List.mem_of_getElem? hk'))]
        have : outpoint i' = outpoint i := by simp only [outpoint, e2, e3]
        rw [this]; exact hL
      · intro e; have := hid.1; rw [e] at this; simp at this
    · rw [hvi, hvo]; exact ⟨p4, by omega⟩
    · rw [hvi, hvo]; exact p5
    · show tx'.Locktime = 0
      rw [← s2.2.1]; exact hlock
  · rintro L' ⟨h1, -, t, h3, -, rfl⟩
    have := hwire t h1 h3
    subst this
    have e1 : created (H.sha256 (H.sha256 tx'.ToBytes)) (wireTx tx') = created (H.sha256 (H.sha256 tx'.ToBytes)) tx := by
      unfold created
      show tx'.Outputs.mapIdx _ = _
      rw [ho', ho1]
    funext key
    unfold Ledger.after
    rw [e1, hwo, outpoints_same s2]

/-- C121, order: if the parties' keys have different hashes, the bytes at the end do not depend on the order of the parties. (The transaction is one made by calls as above, or any other that is not too large and whose
previous scripts can be read.) -/
theorem C121_order (H : HashFns) (ps qs : List InternalSigner) (hg : ∀ is ∈ ps, SoundSigner is) (hp : ps.Perm qs) (hn : (ps.map fun is => H.ripemd160 (H.sha256 is.pubKey)).Nodup)
    (tx : Transaction) (hs : Sized tx) (hr : ReadableScripts tx) (ht : ∀ i ∈ tx.Inputs, IsTxId i.PreviousTxID)
    (hcap : ∀ n t, signWithAll H (ps.take n) tx = .ok t ∨ signWithAll H (qs.take n) tx = .ok t → t.ToBytes.length < 2 ^ 62) :
    ∃ b, relay H (previousOutputs tx) (ps.map .auto) tx.ToBytes = .ok b ∧ relay H (previousOutputs tx) (qs.map .auto) tx.ToBytes = .ok b := by
  have hgq : ∀ is ∈ qs, SoundSigner is := fun is h => hg is (hp.mem_iff.mpr h)
  have one : ∀ rs : List InternalSigner, (∀ is ∈ rs, SoundSigner is) → (∀ n t, signWithAll H (rs.take n) tx = .ok t → t.ToBytes.length < 2 ^ 62) →
      relay H (previousOutputs tx) (rs.map .auto) tx.ToBytes = (signWithAll H rs tx >>= fun t => .ok t.ToBytes) := by
    intro rs hg hcap
    rw [C110_relay H _ tx ht, allInOne_auto H rs tx hg hs hr]
    intro n t h
    rw [← List.map_take, allInOne_auto H _ tx (fun is h => hg is (List.mem_of_mem_take h)) hs hr] at h
    exact hcap _ t h
  obtain ⟨tx', h1, -⟩ := unsigned_stays H ps tx hg hs hr
  refine ⟨tx'.ToBytes, by rw [one ps hg fun n t h => hcap n t (Or.inl h), h1]; rfl, ?_⟩
  rw [one qs hgq fun n t h => hcap n t (Or.inr h), ← signWithAll_perm H hp hg hn tx hs hr, h1]
  rfl

/-! ## Concrete cases -/

/-- Signatures of two toy keys. -/
def toyVerify2 (pub d s : Bytes) : Bool := toyVerify pub d s || (pub == toySigner2.pubKey && s == d.take 5)

theorem toySigners_good : ∀ is ∈ [toySigner, toySigner2], GoodSigner toyVerify2 is := by
  intro is h
  simp only [List.mem_cons, List.not_mem_nil, or_false] at h
  rcases h with rfl | rfl
  · exact ⟨toySigner_sized, by decide, fun d => ⟨d.take 9, rfl, by simp [toyVerify2, toyVerify]⟩⟩
  · refine ⟨⟨by decide, ?_⟩, by decide, fun d => ⟨d.take 5, rfl, by simp [toyVerify2]⟩⟩
    intro d s h
    injection h with h
    subst h
    simp; omega

/-- A coin of each. -/
def exJointLedger : Ledger := fun k =>
  if k = outpointOf (List.replicate 64 49) 1 then some ⟨90, p2pkh (toyH.ripemd160 (toyH.sha256 toySigner.pubKey))⟩
  else if k = outpointOf (List.replicate 64 50) 0 then some ⟨60, p2pkh (toyH.ripemd160 (toyH.sha256 toySigner2.pubKey))⟩ else none

/-- They pay 140 together. -/
def exJointCalls : List Call := [
  .fromUtxo (List.replicate 64 49) 1 (hexEncode (p2pkh (toyH.ripemd160 (toyH.sha256 toySigner.pubKey)))) 90,
  .fromUtxo (List.replicate 64 50) 0 (hexEncode (p2pkh (toyH.ripemd160 (toyH.sha256 toySigner2.pubKey)))) 60,
  .payTo (Address.NewFromPublicKeyHash toyH (List.replicate 20 7) true).AddressString 140]

theorem exJoint_calls : ∀ c ∈ exJointCalls, PaymentCall exJointLedger (keyHashes toyH [toySigner, toySigner2]) c := by
  intro c h
  simp only [exJointCalls, List.mem_cons, List.not_mem_nil, or_false] at h
  rcases h with rfl | rfl | rfl
  · exact ⟨by unfold IsTxId; decide +kernel, _, List.mem_map.mpr ⟨toySigner, by simp, rfl⟩, (isHexString_iff _).mpr (isHex_encode _), hexDecodeIgnore_encode _, by simp [exJointLedger]⟩
  · refine ⟨by unfold IsTxId; decide +kernel, _, List.mem_map.mpr ⟨toySigner2, by simp, rfl⟩, (isHexString_iff _).mpr (isHex_encode _), hexDecodeIgnore_encode _, ?_⟩
    unfold exJointLedger
    rw [if_neg (by decide +kernel), if_pos rfl]
  · show IsAddressLike _
    decide +kernel

/-- The sizes along the way. -/
theorem exJoint_cap (ps : List InternalSigner) (hps : ps = [toySigner, toySigner2] ∨ ps = [toySigner]) :
    ∀ n tx flags t, applyCalls Transaction.New exJointCalls = .ok (tx, flags) → signWithAll toyH (ps.take n) tx = .ok t → t.ToBytes.length < 2 ^ 62 := by
  have key : ∀ qs : List InternalSigner, qs ∈ [[], [toySigner], [toySigner, toySigner2]] → (match applyCalls Transaction.New exJointCalls with
      | .ok r => match signWithAll toyH qs r.1 with
        | .ok t => decide (t.ToBytes.length < 2 ^ 62)
        | _ => true
      | _ => true) = true := by
    intro qs h
    simp only [List.mem_cons, List.not_mem_nil, or_false] at h
    rcases h with rfl | rfl | rfl <;> decide +kernel
  intro n tx flags t h1 h2
  have := key (ps.take n) (by
    rcases hps with rfl | rfl <;> rcases n with _ | _ | n <;> simp)
  rw [h1] at this
  dsimp only at this
  rw [h2] at this
  simpa using this

/-- Both sign: the node accepts. -/
example : ∃ tx b L', applyCalls Transaction.New exJointCalls = .ok (tx, [true, true, true]) ∧ relay toyH (previousOutputs tx) [.auto toySigner, .auto toySigner2] tx.ToBytes = .ok b ∧
    NodeAccepts toyH toyVerify2 exJointLedger b L' := by
  obtain ⟨tx, b, h1, h2, h3, -⟩ := C121_joint toyH toyVerify2 [toySigner, toySigner2] toySigners_good exJointLedger _ (by
    intro h hm
    obtain ⟨is, -, rfl⟩ := List.mem_map.mp hm
    exact toyH.ripemd160_length _) exJointCalls exJoint_calls (by simp [exJointCalls]) (exJoint_cap _ (Or.inl rfl))
  have hf : (match applyCalls Transaction.New exJointCalls with
      | .ok r => match relay toyH (previousOutputs r.1) [.auto toySigner, .auto toySigner2] r.1.ToBytes with
        | .ok b => decide (b.length ≤ maxTxBytes ∧ toyH.sha256 (toyH.sha256 b) ≠ List.replicate 32 17 ∧ toyH.sha256 (toyH.sha256 b) ≠ List.replicate 32 34)
        | _ => false
      | _ => false) = true := by decide +kernel
  have h2' : relay toyH (previousOutputs tx) [.auto toySigner, .auto toySigner2] tx.ToBytes = .ok b := h2
  rw [h1] at hf
  dsimp only at hf
  rw [h2'] at hf
  dsimp only at hf
  rw [decide_eq_true_eq] at hf
  obtain ⟨L', hL⟩ := h3.mpr ⟨⟨⟨_, List.mem_cons_self, by simp [Call.spent]⟩, ⟨.payTo (Address.NewFromPublicKeyHash toyH (List.replicate 20 7) true).AddressString 140, by simp [exJointCalls], by simp [Call.outs]⟩,
    by decide +kernel, by decide +kernel, by decide +kernel⟩, hf.1, by
      intro n _
      have k1 : outpointOf (List.replicate 64 49) 1 = List.replicate 32 17 ++ leBytes 4 1 := by decide +kernel
      have k2 : outpointOf (List.replicate 64 50) 0 = List.replicate 32 34 ++ leBytes 4 0 := by decide +kernel
      unfold exJointLedger
      rw [if_neg, if_neg]
      · rw [k2]; intro e; exact hf.2.2 (List.append_inj_left e (by simp [toyH.sha256_length]))
      · rw [k1]; intro e; exact hf.2.1 (List.append_inj_left e (by simp [toyH.sha256_length])), by
      intro t v s sats hm
      simp only [exJointCalls, List.mem_cons, List.not_mem_nil, or_false, Call.fromUtxo.injEq, reduceCtorEq] at hm
      rcases hm with ⟨-, -, rfl, -⟩ | ⟨-, -, rfl, -⟩
      · exact ⟨toySigner, by simp, hexDecodeIgnore_encode _⟩
      · exact ⟨toySigner2, by simp, hexDecodeIgnore_encode _⟩⟩
  exact ⟨tx, b, L', h1, h2', hL⟩

/-- One of the two does not sign: nobody accepts. -/
example : ∃ tx b, applyCalls Transaction.New exJointCalls = .ok (tx, [true, true, true]) ∧ relay toyH (previousOutputs tx) [.auto toySigner] tx.ToBytes = .ok b ∧
    ∀ L', ¬ NodeAccepts toyH toyVerify2 exJointLedger b L' := by
  obtain ⟨tx, b, h1, h2, h3, -⟩ := C121_joint toyH toyVerify2 [toySigner] (fun is h => toySigners_good is (by simp at h; simp [h])) exJointLedger _ (by
    intro h hm
    obtain ⟨is, -, rfl⟩ := List.mem_map.mp hm
    exact toyH.ripemd160_length _) exJointCalls exJoint_calls (by simp [exJointCalls]) (exJoint_cap _ (Or.inr rfl))
  refine ⟨tx, b, h1, h2, fun L' hL => ?_⟩
  obtain ⟨is, his, e⟩ := (h3.mp ⟨L', hL⟩).2.2.2 _ _ _ _ (show Call.fromUtxo (List.replicate 64 50) 0 (hexEncode (p2pkh (toyH.ripemd160 (toyH.sha256 toySigner2.pubKey)))) 60 ∈ exJointCalls by simp [exJointCalls])
  rw [List.mem_singleton.mp his] at e
  revert e
  decide +kernel

/-- The order does not matter. -/
example : ∃ b, relay toyH (previousOutputs exTwo) [.auto toySigner, .auto toySigner2] exTwo.ToBytes = .ok b ∧ relay toyH (previousOutputs exTwo) [.auto toySigner2, .auto toySigner] exTwo.ToBytes = .ok b := by
  have key : ∀ qs : List InternalSigner, qs ∈ [[], [toySigner], [toySigner2], [toySigner, toySigner2], [toySigner2, toySigner]] → (match signWithAll toyH qs exTwo with
      | .ok t => decide (t.ToBytes.length < 2 ^ 62)
      | _ => true) = true := by
    intro qs h
    simp only [List.mem_cons, List.not_mem_nil, or_false] at h
    rcases h with rfl | rfl | rfl | rfl | rfl <;> decide +kernel
  refine C121_order toyH [toySigner, toySigner2] [toySigner2, toySigner] (fun is h => (toySigners_good is h).sound) (.swap _ _ _) (by decide +kernel) exTwo ?_ ?_ (by decide +kernel) ?_
  · exact ⟨by decide, by decide +kernel, by decide +kernel, by decide +kernel⟩
  · intro i hi
    revert i
    decide +kernel
  · intro n t h
    rcases h with h | h
    · have := key ([toySigner, toySigner2].take n) (by rcases n with _ | _ | n <;> simp)
      rw [h] at this
      simpa using this
    · have := key ([toySigner2, toySigner].take n) (by rcases n with _ | _ | n <;> simp)
      rw [h] at this
      simpa using this

end Verif.Props
