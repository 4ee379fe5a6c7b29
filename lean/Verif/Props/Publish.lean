import Verif.Spec.Publish
import Verif.Props.Ledger
import Verif.Props.Output
/-!
# C131: publishing data, and reading what others publish
-/
namespace Verif.Props
open Verif Spec Transaction

/-- A reader of data, with the library: for one output. An output that is no data, or cannot be decoded, is left out. -/
def dataOf (o : Output) : Res (Option (List Bytes)) := do
  let d ← IsData o.LockingScript
  if d then
    match DecodeParts o.LockingScript with
    | .ok ps => pure (some ps)
    | .err _ => pure none
    | .panic => .panic
  else pure none

/-- For a transaction in wire form: all data in its outputs, in order. -/
def readData (b spare : Bytes) : Res (List (List Bytes)) := do
  let tx ← NewFromBytes ⟨b, spare⟩
  let rs ← tx.Outputs.mapM dataOf
  pure (rs.filterMap id)

theorem isData_cases (s : Bytes) : (IsData s = .panic ∧ (s = [] ∨ s = [0x00])) ∨ (IsData s = .ok true ∧ DataScript s) ∨ (IsData s = .ok false ∧ ¬ DataScript s ∧ s ≠ [] ∧ s ≠ [0x00]) := by
  have h := C18_isData_iff s
  rcases s with _ | ⟨a, _ | ⟨b, s⟩⟩
  · left; exact ⟨rfl, .inl rfl⟩
  · by_cases ha : a = 0x6a
    · subst ha; right; left; exact ⟨rfl, .inl ⟨[], rfl⟩⟩
    · by_cases h0 : a = 0
      · subst h0; left; exact ⟨rfl, .inr rfl⟩
      · right; right
        refine ⟨by simp [IsData, index, ha, h0], ?_, by simp, by simpa using h0⟩
        rintro (⟨r, e⟩ | ⟨r, e⟩)
        · injection e with e; exact ha e
        · cases e
  · right
    by_cases hd : DataScript (a :: b :: s)
    · exact .inl ⟨h.mpr hd, hd⟩
    · right
      refine ⟨?_, hd, by simp, by simp⟩
      by_cases ha : a = 0x6a
      · exact absurd (.inl ⟨_, by rw [ha]⟩) hd
      · by_cases h0 : a = 0
        · by_cases hb : b = 0x6a
          · exact absurd (.inr ⟨s, by rw [h0, hb]⟩) hd
          · simp [IsData, index, h0, hb]
        · simp [IsData, index, ha, h0]

theorem decode_cases (s : Bytes) : (DecodeParts s = .panic ∧ ∃ (ts : List Token) (rest : Bytes), (∀ t ∈ ts, t.Valid ∧ Decodable t) ∧ s = bytesOf ts ++ rest ∧ BadHeader rest) ∨
    (∃ ps, DecodeParts s = .ok ps ∧ PartsOf s ps) ∨ (∃ e, DecodeParts s = .err e) := by
  rcases h : DecodeParts s with ps | e | _
  · obtain ⟨ts, h1, h2, h3, h4⟩ := decodeParts_ok h
    exact .inr (.inl ⟨ps, rfl, ts, fun t ht => ⟨h1 t ht, h2 t ht⟩, h3, h4⟩)
  · exact .inr (.inr ⟨e, rfl⟩)
  · left
    obtain ⟨ts, rest, lb, more, h1, h2, h3⟩ := (C10_panic_iff s).mp h
    refine ⟨rfl, ts, rest, h1, h2, ?_⟩
    rcases h3 with ⟨e1, e2, e3⟩ | ⟨e1, e2, e3⟩
    · exact .inl ⟨lb, more, e1, e2, e3⟩
    · exact .inr ⟨lb, more, e1, e2, e3⟩

theorem decode_panic {s : Bytes} {ts : List Token} {rest : Bytes} (h1 : ∀ t ∈ ts, t.Valid ∧ Decodable t) (h2 : s = bytesOf ts ++ rest) (h3 : BadHeader rest) : DecodeParts s = .panic := by
  rw [h2]; exact decodeParts_bad_prefix ts (fun t h => (h1 t h).1) (fun t h => (h1 t h).2) h3

theorem decode_reads {s : Bytes} {ps : List Bytes} (h : PartsOf s ps) : DecodeParts s = .ok ps := by
  obtain ⟨ts, h1, rfl, rfl⟩ := h
  exact decodeParts_tokens ts (fun t h => (h1 t h).1) fun t h => (h1 t h).2

/-- What the reader does with one output. -/
theorem dataOf_spec (o : Output) :
    (dataOf o = .panic ↔ Harmful o.LockingScript) ∧ (∀ e, dataOf o ≠ .err e) ∧
    (∀ ps, dataOf o = .ok (some ps) ↔ DataScript o.LockingScript ∧ PartsOf o.LockingScript ps) := by
  unfold dataOf
  rcases isData_cases o.LockingScript with ⟨e, h⟩ | ⟨e, h⟩ | ⟨e, h1, h2, h3⟩ <;> rw [e]
  · have hn : ¬ DataScript o.LockingScript := by
      rcases h with h | h <;> rw [h] <;> rintro (⟨r, e⟩ | ⟨r, e⟩) <;> cases e
    refine ⟨⟨fun _ => ?_, fun _ => rfl⟩, (by intro e h; cases h), fun ps => ⟨(by intro h; cases h), fun h => absurd h.1 hn⟩⟩
    rcases h with h | h
    · exact .inl h
    · exact .inr (.inl h)
  · simp only [Res.ok_bind, if_true]
    rcases decode_cases o.LockingScript with ⟨e', ts, rest, g1, g2, g3⟩ | ⟨ps, e', hr⟩ | ⟨x, e'⟩
    · rw [e']
      refine ⟨⟨fun _ => .inr (.inr ⟨h, ts, rest, g1, g2, g3⟩), fun _ => rfl⟩, (by intro e h; cases h), fun ps => ⟨(by intro h; cases h), fun hh => ?_⟩⟩
      rw [decode_reads hh.2] at e'; cases e'
    · rw [e']
      refine ⟨⟨(by intro h; cases h), fun hh => ?_⟩, (by intro e h; cases h), fun ps' => ⟨fun hh => ?_, fun hh => ?_⟩⟩
      · rcases hh with hh | hh | ⟨-, ts, rest, g1, g2, g3⟩
        · rw [hh] at e; cases e
        · rw [hh] at e; cases e
        · rw [decode_panic g1 g2 g3] at e'; cases e'
      · injection hh with hh; injection hh with hh; subst hh; exact ⟨h, hr⟩
      · have := decode_reads hh.2
        rw [e'] at this
        injection this with this
        subst this; rfl
    · rw [e']
      refine ⟨⟨(by intro h; cases h), fun hh => ?_⟩, (by intro e h; cases h), fun ps' => ⟨(by intro h; cases h), fun hh => ?_⟩⟩
      · rcases hh with hh | hh | ⟨-, ts, rest, g1, g2, g3⟩
        · rw [hh] at e; cases e
        · rw [hh] at e; cases e
        · rw [decode_panic g1 g2 g3] at e'; cases e'
      · rw [decode_reads hh.2] at e'; cases e'
  · refine ⟨⟨(by intro h; cases h), fun hh => ?_⟩, (by intro e h; cases h), fun ps => ⟨(by intro h; cases h), fun hh => absurd hh.1 h1⟩⟩
    rcases hh with hh | hh | hh
    · exact absurd hh h2
    · exact absurd hh h3
    · exact absurd hh.1 h1

theorem mapM_dataOf (os : List Output) :
    ((∃ o ∈ os, Harmful o.LockingScript) ∧ os.mapM dataOf = .panic) ∨
    ((¬ ∃ o ∈ os, Harmful o.LockingScript) ∧ ∃ rs, os.mapM dataOf = .ok rs ∧ List.Forall₂ (fun o r => dataOf o = .ok r) os rs) := by
  induction os with
  | nil => right; exact ⟨by simp, [], rfl, .nil⟩
  | cons o os ih =>
    obtain ⟨h1, h2, -⟩ := dataOf_spec o
    rw [List.mapM_cons]
    rcases hd : dataOf o with r | e | _
    · have hn : ¬ Harmful o.LockingScript := by rw [← h1, hd]; simp
      rcases ih with ⟨⟨x, hx, hx'⟩, e⟩ | ⟨hno, rs, e, hf⟩
      · left; rw [e]; exact ⟨⟨x, by simp [hx], hx'⟩, rfl⟩
      · right
        rw [e]
        refine ⟨?_, r :: rs, rfl, .cons hd hf⟩
        rintro ⟨x, hx, hx'⟩
        rcases List.mem_cons.mp hx with rfl | hx
        · exact hn hx'
        · exact hno ⟨x, hx, hx'⟩
    · exact absurd hd (h2 e)
    · left; exact ⟨⟨o, by simp, h1.mp hd⟩, rfl⟩

/-- C131 (the reader): for every transaction in wire form, whoever made it. The reader panics exactly if the script of one of the outputs is harmful; else it gives, in order, the parts of exactly those outputs
whose scripts are data scripts and consist of complete tokens. -/
theorem C131_read (tx : Transaction) (b spare : Bytes) (hcap : b.length + spare.length < 2 ^ 62) (hb : IsTx CompactSize tx b) :
    (readData b spare = .panic ↔ ∃ o ∈ tx.Outputs, Harmful o.LockingScript) ∧
    ((¬ ∃ o ∈ tx.Outputs, Harmful o.LockingScript) → ∃ rs : List (Option (List Bytes)), readData b spare = .ok (rs.filterMap id) ∧
      List.Forall₂ (fun o r => ∀ ps, r = some ps ↔ DataScript o.LockingScript ∧ PartsOf o.LockingScript ps) tx.Outputs rs) := by
  unfold readData
  rw [(C35_accepts_iff b spare hcap tx).mpr hb, Res.ok_bind]
  rcases mapM_dataOf tx.Outputs with ⟨h, e⟩ | ⟨h, rs, e, hf⟩ <;> rw [e]
  · exact ⟨⟨fun _ => h, fun _ => rfl⟩, fun hn => absurd h hn⟩
  · refine ⟨⟨(by intro h; cases h), fun hh => absurd hh h⟩, fun _ => ⟨rs, rfl, hf.imp ?_⟩⟩
    intro o r ho ps
    rw [← (dataOf_spec o).2.2 ps, ho]
    simp

/-! ## Publishing -/

/-- What a publisher does: calls of a payment, and items of data. -/
def publishCalls (steps : List (Call ⊕ List Bytes)) : Res (List Call) :=
  steps.mapM fun
    | .inl c => pure c
    | .inr d => do
      let o ← Output.NewOpReturnParts d
      pure (.addOutput o)

/-- A step of a publisher: `From` and `PayTo` as in any payment, or items of data of lengths that can be read back. -/
def PublishStep (L : Ledger) (hashes : List Bytes) : Call ⊕ List Bytes → Prop
  | .inl c => PaymentCall L hashes c ∧ ∀ o, c ≠ .addOutput o
  | .inr d => ∀ p ∈ d, p.length < 2 ^ 32 ∧ ¬ overflowLength p.length

theorem publish_calls {L : Ledger} {hashes : List Bytes} (steps : List (Call ⊕ List Bytes)) (hs : ∀ s ∈ steps, PublishStep L hashes s) (hlen : ∀ d, Sum.inr d ∈ steps → ∀ o, Output.NewOpReturnParts d = .ok o → o.LockingScript.length < 2 ^ 64) :
    ∃ calls, publishCalls steps = .ok calls ∧ calls.length = steps.length ∧ (∀ c ∈ calls, PaymentCall L hashes c) ∧
      ∃ rs, (calls.flatMap Call.outs).mapM dataOf = .ok rs ∧ rs.filterMap id = steps.filterMap (fun | .inl _ => none | .inr d => some (publishedParts d)) := by
  induction steps with
  | nil => exact ⟨[], rfl, rfl, by simp, [], rfl, rfl⟩
  | cons s ss ih =>
    obtain ⟨calls, h1, h2, h3, rs, h4, h5⟩ := ih (fun x hx => hs x (by simp [hx])) (fun d hd => hlen d (by simp [hd]))
    have h1' : List.mapM (fun | .inl c => pure c | .inr d => do let o ← Output.NewOpReturnParts d; pure (Call.addOutput o)) ss = Res.ok calls := h1
    have hstep := hs s (by simp)
    rcases s with c | d
    · refine ⟨c :: calls, ?_, by simp [h2], ?_, ?_⟩
      · unfold publishCalls
        rw [List.mapM_cons, h1']; rfl
      · intro x hx
        rcases List.mem_cons.mp hx with rfl | hx
        · exact hstep.1
        · exact h3 x hx
      · cases c with
        | addInput i => exact hstep.1.elim
        | addOutput o => exact absurd rfl (hstep.2 o)
        | fromUtxo t v s a => exact ⟨rs, by simpa [Call.outs] using h4, by simpa using h5⟩
        | payTo a sats =>
          refine ⟨none :: rs, ?_, by simpa using h5⟩
          have hd : ∀ x : Bytes, dataOf ⟨sats, [0x76, 0xa9, 0x14] ++ x⟩ = .ok none := by intro x; rfl
          simp only [Call.outs, List.flatMap_cons, List.cons_append, List.nil_append, List.mapM_cons]
          rw [show (0x76 :: 0xa9 :: 0x14 :: ((((base58Decode a).drop 1).take 20) ++ [0x88, 0xac]) : Bytes) = [0x76, 0xa9, 0x14] ++ ((((base58Decode a).drop 1).take 20) ++ [0x88, 0xac]) from rfl, hd, h4]
          rfl
    · have hl : ∀ p ∈ d, p.length ≤ 2 ^ 32 - 1 := fun p hp => by have := (hstep p hp).1; omega
      obtain ⟨o, pres, e1, e2, e3, -⟩ := (C21_opReturn d).1 hl
      have hdec := (C21_opReturn_decodes d o e1).1 fun p hp => (hstep p hp).2
      refine ⟨.addOutput o :: calls, ?_, by simp [h2], ?_, some (publishedParts d) :: rs, ?_, ?_⟩
      · unfold publishCalls
        rw [List.mapM_cons, h1']; simp only [e1, Res.ok_bind]; rfl
      · intro x hx
        rcases List.mem_cons.mp hx with rfl | hx
        · exact hlen d (by simp) o e1
        · exact h3 x hx
      · have hd : dataOf o = .ok (some (publishedParts d)) := by
          unfold dataOf
          rw [e3, Res.ok_bind, if_pos rfl, hdec]
          rfl
        simp only [Call.outs, List.flatMap_cons, List.singleton_append, List.mapM_cons]
        rw [hd, h4]; rfl
      · simpa using h5

/-- The signed transaction of a payment is read back. -/
theorem payment_parses (H : HashFns) (verify : Bytes → Bytes → Bytes → Bool) (signers : List InternalSigner) (hg : ∀ is ∈ signers, GoodSigner verify is) (L : Ledger) (calls : List Call)
    (hc : ∀ c ∈ calls, PaymentCall L (keyHashes H signers) c) (hlen : calls.length < 2 ^ 31) (tx tx' : Transaction) (oks : List Bool) (h1 : applyCalls Transaction.New calls = .ok (tx, oks)) (h2 : signWithAll H signers tx = .ok tx')
    (spare : Bytes) (hcap : tx'.ToBytes.length + spare.length < 2 ^ 62) : NewFromBytes ⟨tx'.ToBytes, spare⟩ = .ok (wireTx tx') := by
  have hb := built calls (payment_wellFormed hc)
  rw [h1] at hb
  injection hb with hb
  have htx := (Prod.mk.inj hb).1
  have hi1 : tx.Inputs = calls.flatMap Call.ins := by rw [htx]
  have ho1 : tx.Outputs = calls.flatMap Call.outs := by rw [htx]
  obtain ⟨l1, l2⟩ := ins_length calls
  have hpi := payment_inputs hc
  rw [← hi1] at hpi
  have h20 : ∀ h ∈ keyHashes H signers, h.length = 20 := by
    intro h hm
    obtain ⟨is, -, rfl⟩ := List.mem_map.mp hm
    exact H.ripemd160_length _
  have hs : Sized tx := by
    refine ⟨by rw [hi1]; omega, by rw [ho1]; omega, by rw [ho1]; exact payment_outputs hc, ?_⟩
    intro i hi s hsome
    obtain ⟨-, ⟨h, hm, h1, -⟩, -⟩ := hpi i hi
    rw [h1] at hsome
    injection hsome with hsome
    rw [← hsome]; simp [p2pkh, h20 h hm]
  have hrd : ReadableScripts tx := fun i hi hpan => by
    obtain ⟨-, ⟨h, hm, h1, -⟩, -⟩ := hpi i hi
    rw [h1, p2pkh, C14_getPublicKeyHash _ (h20 h hm)] at hpan
    cases hpan
  obtain ⟨tx2, s1, s2, -⟩ := C70_signed_accepted H verify signers hg tx hs hrd
  rw [h2] at s1; injection s1 with s1; subst s1
  exact C33_parse_serialise tx' (txids_same s2 fun i hi => (hpi i hi).1) spare hcap

/-- C131 (the publisher): any data in any number of outputs, between the calls of a payment. Nothing fails, a node accepts the signed transaction exactly if the payment can be made (and the bytes are not too many
and no other transaction has the same hash), and a reader reads exactly the data, in order. -/
theorem C131_publish (H : HashFns) (verify : Bytes → Bytes → Bytes → Bool) (signers : List InternalSigner) (hg : ∀ is ∈ signers, GoodSigner verify is) (L : Ledger) (steps : List (Call ⊕ List Bytes))
    (hs : ∀ s ∈ steps, PublishStep L (keyHashes H signers) s) (hlen : steps.length < 2 ^ 31)
    (hsz : ∀ d, Sum.inr d ∈ steps → ∀ o, Output.NewOpReturnParts d = .ok o → o.LockingScript.length < 2 ^ 64) :
    ∃ calls tx tx', publishCalls steps = .ok calls ∧ applyCalls Transaction.New calls = .ok (tx, List.replicate calls.length true) ∧ signWithAll H signers tx = .ok tx' ∧
      ((∃ L', NodeAccepts H verify L tx'.ToBytes L') ↔
        Payable calls ∧ tx'.ToBytes.length ≤ maxTxBytes ∧ ∀ n < 2 ^ 32, L (H.sha256 (H.sha256 tx'.ToBytes) ++ leBytes 4 n) = none) ∧
      ∀ spare : Bytes, tx'.ToBytes.length + spare.length < 2 ^ 62 →
        readData tx'.ToBytes spare = .ok (steps.filterMap fun | .inl _ => none | .inr d => some (publishedParts d)) := by
  obtain ⟨calls, h1, h2, h3, rs, h4, h5⟩ := publish_calls steps hs hsz
  obtain ⟨tx, tx', g1, g2, g3, -, g5, -⟩ := C115_payment H verify signers hg L calls h3 (by omega)
  refine ⟨calls, tx, tx', h1, g1, g2, g5, ?_⟩
  intro spare hcap
  have ho : (wireTx tx').Outputs = tx'.Outputs := rfl
  unfold readData
  rw [payment_parses H verify signers hg L calls h3 (by omega) tx tx' _ g1 g2 spare hcap, Res.ok_bind, ho, g3, h4, Res.ok_bind, h5]
  rfl

/-- C131 (violated): a harmful output costs nothing. Whoever can make a payment can add one of no value, nodes accept the transaction all the same, and the reader that reads it dies. -/
theorem C131_violated (H : HashFns) (verify : Bytes → Bytes → Bytes → Bool) (signers : List InternalSigner) (hg : ∀ is ∈ signers, GoodSigner verify is) (L : Ledger) (calls : List Call)
    (hc : ∀ c ∈ calls, PaymentCall L (keyHashes H signers) c) (hlen : calls.length + 1 < 2 ^ 31) (hp : Payable calls) (s : Bytes) (hs : Harmful s) (hl : s.length < 2 ^ 64) :
    ∃ tx tx', applyCalls Transaction.New (calls ++ [.addOutput ⟨0, s⟩]) = .ok (tx, List.replicate (calls.length + 1) true) ∧ signWithAll H signers tx = .ok tx' ∧
      (tx'.ToBytes.length ≤ maxTxBytes → (∀ n < 2 ^ 32, L (H.sha256 (H.sha256 tx'.ToBytes) ++ leBytes 4 n) = none) → ∃ L', NodeAccepts H verify L tx'.ToBytes L') ∧
      ∀ spare : Bytes, tx'.ToBytes.length + spare.length < 2 ^ 62 → readData tx'.ToBytes spare = .panic := by
  have hc' : ∀ c ∈ calls ++ [Call.addOutput ⟨0, s⟩], PaymentCall L (keyHashes H signers) c := by
    intro c hm
    rcases List.mem_append.mp hm with hm | hm
    · exact hc c hm
    · rw [List.mem_singleton.mp hm]; exact hl
  have hlen' : (calls ++ [Call.addOutput ⟨0, s⟩]).length < 2 ^ 31 := by simpa using hlen
  obtain ⟨tx, tx', g1, g2, g3, -, g5, -⟩ := C115_payment H verify signers hg L _ hc' hlen'
  refine ⟨tx, tx', by simpa using g1, g2, fun hb hf => g5.mpr ⟨?_, hb, hf⟩, fun spare hcap => ?_⟩
  · obtain ⟨⟨c, c1, c2⟩, -, p3, p4, p5⟩ := hp
    refine ⟨⟨c, by simp [c1], c2⟩, ⟨_, List.mem_append_right _ (List.mem_singleton.mpr rfl), by simp [Call.outs]⟩, ?_, ?_, ?_⟩
    · simpa [Call.spent] using p3
    · simpa [Call.amountIn] using p4
    · simpa [Call.amountIn, Call.amountOut] using p5
  · have hpar := payment_parses H verify signers hg L _ hc' hlen' tx tx' _ g1 g2 spare hcap
    have ho : (wireTx tx').Outputs = tx'.Outputs := rfl
    unfold readData
    rw [hpar, Res.ok_bind, ho]
    rcases mapM_dataOf tx'.Outputs with ⟨-, e⟩ | ⟨hn, -⟩
    · rw [e]; rfl
    · exact absurd ⟨⟨0, s⟩, by rw [g3]; simp [Call.outs], hs⟩ hn

/-- A coin is spent, "hi" and an empty item are published, and the rest is paid to an address. -/
def exPublish : List (Call ⊕ List Bytes) :=
  [.inl (.fromUtxo exCoin.txid exCoin.vout exCoin.scriptHex exCoin.sats), .inr [[0x68, 0x69], []], .inl (.payTo (Address.NewFromPublicKeyHash toyH (List.replicate 20 7) true).AddressString 80)]

/-- The steps are possible, the payment can be made, and the item is read. -/
example : (∀ s ∈ exPublish, PublishStep exLedger (keyHashes toyH [toySigner]) s) ∧ (∃ calls, publishCalls exPublish = .ok calls ∧ Payable calls) ∧
    exPublish.filterMap (fun | .inl _ => none | .inr d => some (publishedParts d)) = [[[0x00], [0x6a], [0x68, 0x69], [0x00]]] := by
  refine ⟨?_, ⟨[.fromUtxo exCoin.txid exCoin.vout exCoin.scriptHex exCoin.sats, .addOutput ⟨0, [0x00, 0x6a, 0x02, 0x68, 0x69, 0x00]⟩,
    .payTo (Address.NewFromPublicKeyHash toyH (List.replicate 20 7) true).AddressString 80], ?_, ?_⟩, by decide⟩
  · intro s hs
    simp only [exPublish, List.mem_cons, List.not_mem_nil, or_false] at hs
    rcases hs with rfl | rfl | rfl
    · exact ⟨⟨by unfold IsTxId; decide +kernel, _, List.mem_map.mpr ⟨toySigner, by simp, rfl⟩, (isHexString_iff _).mpr (isHex_encode _), hexDecodeIgnore_encode _, by simp [exLedger, exCoin, WalletCoin.key]⟩, by simp⟩
    · intro p hp
      simp only [List.mem_cons, List.not_mem_nil, or_false] at hp
      rcases hp with rfl | rfl <;> exact ⟨by decide, by unfold overflowLength; decide⟩
    · exact ⟨show IsAddressLike _ by decide +kernel, by simp⟩
  · have e : Output.NewOpReturnParts [[0x68, 0x69], []] = .ok ⟨0, [0x00, 0x6a, 0x02, 0x68, 0x69, 0x00]⟩ := by decide +kernel
    simp only [publishCalls, exPublish, List.mapM_cons, e]
    rfl
  · exact ⟨⟨_, List.mem_cons_self, by simp [Call.spent]⟩, ⟨.addOutput ⟨0, [0x00, 0x6a, 0x02, 0x68, 0x69, 0x00]⟩, by simp, by simp [Call.outs]⟩, by simp [Call.spent], by decide, by decide⟩

/-- Harmful: four bytes that announce a push of 65535. Not harmful: "hi" as data. -/
example : Harmful [0x6a, 0x4d, 0xff, 0xff] ∧ ¬ Harmful [0x6a, 0x02, 0x68, 0x69] := by
  have h1 := (dataOf_spec ⟨0, [0x6a, 0x4d, 0xff, 0xff]⟩).1
  have h2 := (dataOf_spec ⟨0, [0x6a, 0x02, 0x68, 0x69]⟩).1
  refine ⟨h1.mp (by decide +kernel), fun h => ?_⟩
  have := h2.mpr h
  revert this
  decide +kernel

end Verif.Props
