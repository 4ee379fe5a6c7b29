import Verif.Props.Tx
import Verif.Spec.TxBytes
/-!
# C101: what a transaction is written as, whatever its txids are
-/
namespace Verif.Props
open Verif Verif.Spec

theorem hexDigit_iff (c : UInt8) : HexDigit c ↔ (fromHexChar c).isSome := (fromHexChar_isSome_iff c).symm

theorem hexStart_exists (t : Bytes) : HexStart t (hexDecodeIgnore t) := by
  unfold hexDecodeIgnore
  induction t using hexDecode.induct with
  | case1 => exact ⟨[], [], rfl, rfl, by simp, rfl, by simp⟩
  | case2 c v h => exact ⟨[], [c], rfl, rfl, by simp, by simp [hexDecode, h, hexEncode], by simp⟩
  | case3 c h => exact ⟨[], [c], rfl, rfl, by simp, by simp [hexDecode, h, hexEncode], by simp⟩
  | case4 a b rest x y h1 h2 ih =>
    obtain ⟨p, r, h3, h4, h5, h6, h7⟩ := ih
    have la := lower_hexChar a (by simp [h2])
    have lb := lower_hexChar b (by simp [h1])
    rw [h2] at la; rw [h1] at lb
    simp only [Option.getD_some] at la lb
    obtain ⟨n1, n2⟩ := nibbles' x y la.2 lb.2
    refine ⟨a :: b :: p, r, by simp [h3], by simp; omega, ?_, ?_, h7⟩
    · intro c hc
      simp only [List.mem_cons] at hc
      rcases hc with rfl | rfl | hc
      · rw [hexDigit_iff, h2]; rfl
      · rw [hexDigit_iff, h1]; rfl
      · exact h5 c hc
    · simp only [hexDecode, h1, h2, hexEncode, n1, n2, la.1, lb.1, h6, List.map_cons]
  | case5 a b rest h =>
    refine ⟨[], a :: b :: rest, rfl, rfl, by simp, ?_, ?_⟩
    · have : hexDecode (a :: b :: rest) = ([], some "encoding/hex: invalid byte") := by
        rw [hexDecode]
        split
        · rename_i x y hx hy; exact (h x y hx hy).elim
        · rfl
      rw [this]; rfl
    · intro x y r e
      simp only [List.cons.injEq] at e
      obtain ⟨rfl, rfl, rfl⟩ := e
      rw [hexDigit_iff, hexDigit_iff]
      rintro ⟨ha, hb⟩
      obtain ⟨x, hx⟩ := Option.isSome_iff_exists.mp ha
      obtain ⟨y, hy⟩ := Option.isSome_iff_exists.mp hb
      exact h x y hx hy

theorem hexStart_prefix_unique : ∀ (n : Nat) (p q r s : Bytes), p.length ≤ n → p ++ r = q ++ s → p.length % 2 = 0 → q.length % 2 = 0 → (∀ c ∈ p, HexDigit c) → (∀ c ∈ q, HexDigit c) →
    (∀ x y t, r = x :: y :: t → ¬ (HexDigit x ∧ HexDigit y)) → (∀ x y t, s = x :: y :: t → ¬ (HexDigit x ∧ HexDigit y)) → p = q := by
  intro n
  induction n with
  | zero =>
    intro p q r s hn he hp hq dp dq hr hs
    have : p = [] := by simpa using hn
    subst this
    rcases q with _ | ⟨a, _ | ⟨b, q⟩⟩
    · rfl
    · simp at hq
    · exact absurd ⟨dq a (by simp), dq b (by simp)⟩ (hr a b (q ++ s) (by simpa using he))
  | succ n ih =>
    intro p q r s hn he hp hq dp dq hr hs
    rcases p with _ | ⟨a, _ | ⟨b, p⟩⟩
    · rcases q with _ | ⟨a, _ | ⟨b, q⟩⟩
      · rfl
      · simp at hq
      · exact absurd ⟨dq a (by simp), dq b (by simp)⟩ (hr a b (q ++ s) (by simpa using he))
    · simp at hp
    · rcases q with _ | ⟨a', _ | ⟨b', q⟩⟩
      · exact absurd ⟨dp a (by simp), dp b (by simp)⟩ (hs a b (p ++ r) (by simpa using he.symm))
      · simp at hq
      · simp only [List.cons_append, List.cons.injEq] at he
        obtain ⟨rfl, rfl, he⟩ := he
        rw [ih p q r s (by simp at hn; omega) he (by simp at hp; omega) (by simp at hq; omega) (fun c h => dp c (by simp [h])) (fun c h => dq c (by simp [h])) hr hs]

/-- C101: Go's lenient reading of a txid (the error of `hex.DecodeString` is dropped) is the bytes of its longest beginning made of pairs of hex digits. -/
theorem hexStart_iff (t d : Bytes) : HexStart t d ↔ hexDecodeIgnore t = d := by
  constructor
  · rintro ⟨p, r, h1, h2, h3, h4, h5⟩
    obtain ⟨q, s, g1, g2, g3, g4, g5⟩ := hexStart_exists t
    have := hexStart_prefix_unique _ p q r s (le_refl _) (h1.symm.trans g1) h2 g2 h3 g3 h5 g5
    subst this
    exact hexEncode_inj (g4.trans h4.symm)
  · rintro rfl; exact hexStart_exists t

theorem looseInput_exists (i : Input) (hs : (i.UnlockingScript.getD []).length < 2 ^ 64) : LooseInput i (i.ToBytes false) := by
  refine ⟨_, _, hexStart_exists _, minCompactSize_iff.mpr ⟨hs, rfl⟩, ?_⟩
  rw [input_toBytes_eq]; simp [putUint32_eq]

theorem tx_sizes (tx : Transaction) (hsz : tx.ToBytes.length < 2 ^ 62) : (∀ i ∈ tx.Inputs, (i.UnlockingScript.getD []).length < 2 ^ 64) ∧
    (∀ o ∈ tx.Outputs, o.LockingScript.length < 2 ^ 64) ∧ tx.Inputs.length < 2 ^ 64 ∧ tx.Outputs.length < 2 ^ 64 := by
  rw [tx_toBytes_eq] at hsz
  simp only [List.length_append, putUint32_length] at hsz
  refine ⟨fun i h => ?_, fun o h => ?_, ?_, ?_⟩
  · have := flatMap_length_ge (fun i => i.ToBytes false) tx.Inputs i h
    have := input_length i
    omega
  · have := flatMap_length_ge Output.ToBytes tx.Outputs o h
    have := output_length o
    omega
  · have := flatMap_length_ge' (fun i => i.ToBytes false) (fun i => by rw [input_toBytes_eq]; simp; omega) tx.Inputs
    omega
  · have := flatMap_length_ge' Output.ToBytes (fun o => by simp [Output.ToBytes]; omega) tx.Outputs
    omega

/-- C101: what a transaction is written as, whatever it holds; nothing else. -/
theorem C101_layout (tx : Transaction) (hsz : tx.ToBytes.length < 2 ^ 62) : LooseTx tx tx.ToBytes ∧ ∀ b, LooseTx tx b → b = tx.ToBytes := by
  obtain ⟨hi, ho, hci, hco⟩ := tx_sizes tx hsz
  constructor
  · refine ⟨_, _, _, _, minCompactSize_iff.mpr ⟨hci, rfl⟩, isSeq_flatMap (fun i h => looseInput_exists i (hi i h)), minCompactSize_iff.mpr ⟨hco, rfl⟩,
      isSeq_flatMap (fun o h => output_toBytes_isOutput o (ho o h)), ?_⟩
    rw [tx_toBytes_eq]; simp [putUint32_eq]
  · rintro b ⟨ci, bi, co, bo, h1, h2, h3, h4, rfl⟩
    rw [tx_toBytes_eq, (minCompactSize_iff.mp h1).2, (minCompactSize_iff.mp h3).2]
    have e1 : bi = tx.Inputs.flatMap (fun i => i.ToBytes false) := by
      clear hsz hi hci h1 h3
      generalize tx.Inputs = is at h2
      induction is generalizing bi with
      | nil => exact h2
      | cons i is ih =>
        obtain ⟨b1, b2, ⟨d, count, g1, g2, rfl⟩, g4, rfl⟩ := h2
        rw [ih _ g4, ← (hexStart_iff _ _).mp g1, (minCompactSize_iff.mp g2).2, List.flatMap_cons, input_toBytes_eq]
        simp [putUint32_eq]
    have e2 : bo = tx.Outputs.flatMap Output.ToBytes := by
      clear hsz ho hco h1 h3
      generalize tx.Outputs = os at h4
      induction os generalizing bo with
      | nil => exact h4
      | cons o os ih =>
        obtain ⟨b1, b2, ⟨count, g2, rfl⟩, g4, rfl⟩ := h4
        rw [ih _ g4, (minCompactSize_iff.mp g2).2, List.flatMap_cons]
        simp [Output.ToBytes, putUint64_eq]
    rw [e1, e2]
    simp [putUint32_eq]

theorem toBytes_size (tx : Transaction) (ht : ∀ i ∈ tx.Inputs, IsTxId i.PreviousTxID) (hi : ∀ i ∈ tx.Inputs, (i.UnlockingScript.getD []).length < 2 ^ 64)
    (ho : ∀ o ∈ tx.Outputs, o.LockingScript.length < 2 ^ 64) (hci : tx.Inputs.length < 2 ^ 64) (hco : tx.Outputs.length < 2 ^ 64) :
    tx.ToBytes.length = 8 + compactLen tx.Inputs.length + (tx.Inputs.map fun i => 40 + compactLen (i.UnlockingScript.getD []).length + (i.UnlockingScript.getD []).length).sum +
      compactLen tx.Outputs.length + (tx.Outputs.map fun o => 8 + compactLen o.LockingScript.length + o.LockingScript.length).sum := by
  have hv : ∀ n : Nat, n < 2 ^ 64 → (VarInt (UInt64.ofNat n)).length = compactLen n := by
    intro n hn
    rw [VarInt_length, UInt64.toNat_ofNat', Nat.mod_eq_of_lt hn]; rfl
  have e1 : (tx.Inputs.flatMap fun i => i.ToBytes false).length = (tx.Inputs.map fun i => 40 + compactLen (i.UnlockingScript.getD []).length + (i.UnlockingScript.getD []).length).sum := by
    rw [List.length_flatMap]
    congr 1
    apply List.map_congr_left
    intro i h
    have h32 : (hexDecodeIgnore i.PreviousTxID).length = 32 := by
      have := hexDecodeIgnore_length (isTxId_iff.mp (ht i h)).1
      have := (ht i h).1
      omega
    rw [input_toBytes_eq]
    simp only [List.length_append, List.length_reverse, h32, putUint32_length, hv _ (hi i h)]
    omega
  have e2 : (tx.Outputs.flatMap Output.ToBytes).length = (tx.Outputs.map fun o => 8 + compactLen o.LockingScript.length + o.LockingScript.length).sum := by
    rw [List.length_flatMap]
    congr 1
    apply List.map_congr_left
    intro o h
    simp only [Output.ToBytes, List.length_append, putUint64_length, hv _ (ho o h)]
  rw [tx_toBytes_eq]
  simp only [List.length_append, putUint32_length, hv _ hci, hv _ hco, e1, e2]
  omega

/-- C101: the size of a transaction with proper txids. -/
theorem C101_size (tx : Transaction) (ht : ∀ i ∈ tx.Inputs, IsTxId i.PreviousTxID) (hsz : tx.ToBytes.length < 2 ^ 62) :
    tx.ToBytes.length = 8 + compactLen tx.Inputs.length + (tx.Inputs.map fun i => 40 + compactLen (i.UnlockingScript.getD []).length + (i.UnlockingScript.getD []).length).sum +
      compactLen tx.Outputs.length + (tx.Outputs.map fun o => 8 + compactLen o.LockingScript.length + o.LockingScript.length).sum := by
  obtain ⟨hi, ho, hci, hco⟩ := tx_sizes tx hsz
  exact toBytes_size tx ht hi ho hci hco

/-- non-vacuity: a transaction with two inputs, its size, and one with a text that is no txid -/
example : exTx.ToBytes.length = 115 ∧ exTx.Inputs.length = 2 ∧ (∀ i ∈ exTx.Inputs, IsTxId i.PreviousTxID) ∧ HexStart b!"aB1z" [0xab] ∧ HexStart b!"aB1" [0xab] :=
  ⟨by decide +kernel, by decide +kernel, by decide +kernel, (hexStart_iff _ _).mpr (by decide), (hexStart_iff _ _).mpr (by decide)⟩

theorem isTxId_lower (t : Bytes) : IsTxId (t.map lowerChar) ↔ IsTxId t := by
  have h : ∀ c : UInt8, HexDigit (lowerChar c) ↔ HexDigit c := by apply forall_uint8; decide +kernel
  unfold IsTxId
  simp only [List.length_map, List.mem_map, forall_exists_index, and_imp, forall_apply_eq_imp_iff₂]
  constructor
  · rintro ⟨h1, h2⟩; exact ⟨h1, fun c hc => (h c).mp (h2 c hc)⟩
  · rintro ⟨h1, h2⟩; exact ⟨h1, fun c hc => (h c).mpr (h2 c hc)⟩

/-- C101: a transaction comes back from its serialisation exactly if all its txids are proper (64 hex digits). -/
theorem C101_reparse_iff (tx : Transaction) (sp : Bytes) (hcap : tx.ToBytes.length + sp.length < 2 ^ 62) :
    Transaction.NewFromBytes ⟨tx.ToBytes, sp⟩ = .ok (wireTx tx) ↔ ∀ i ∈ tx.Inputs, IsTxId i.PreviousTxID := by
  constructor
  · intro h i hi
    have h1 := (isTx_wire ((C35_accepts_iff _ _ hcap _).mp h)).2 (wireInput i) (List.mem_map.mpr ⟨i, hi, rfl⟩)
    exact (isTxId_lower _).mp h1
  · intro h; exact C33_parse_serialise tx h sp hcap

/-- A transaction whose only input has a txid of 62 digits. -/
def shortIdTx : Transaction :=
  { Version := 1, Locktime := 0,
    Inputs := [{ PreviousTxID := List.replicate 62 b!"a".head!, PreviousTxOutIndex := 0, PreviousTxSatoshis := 0, PreviousTxScript := none, UnlockingScript := none, SequenceNumber := 2 }],
    Outputs := [⟨65536, [0, 0, 1, 0x51]⟩] }

/-- C101 (deviation): txids are not checked. `From` accepts any text as a txid; two transactions that spend different texts can have the same serialisation and id; and the
serialisation of a transaction with a txid that is two digits short is accepted as a different transaction: another output amount and script, no error anywhere. -/
theorem C101_malformed (H : HashFns) :
    (∀ (tx : Transaction) (t : Bytes) (vout : UInt32) (sats : UInt64), ∃ tx', Transaction.From tx t vout [] sats = .ok tx' ∧ tx'.Inputs.length = tx.Inputs.length + 1) ∧
    (∃ tx t t' tx1 tx2, t ≠ t' ∧ Transaction.From tx t 0 [] 1 = .ok tx1 ∧ Transaction.From tx t' 0 [] 1 = .ok tx2 ∧ tx1.ToBytes = tx2.ToBytes ∧ tx1.GetTxID H = tx2.GetTxID H) ∧
    (∃ tx', Transaction.NewFromBytes (Slice.exact shortIdTx.ToBytes) = .ok tx' ∧ tx'.Outputs.length = 1 ∧ tx'.Outputs ≠ shortIdTx.Outputs) := by
  refine ⟨?_, ⟨Transaction.New, b!"0g", b!"g", ?_⟩, ?_⟩
  · intro tx t vout sats
    exact ⟨Transaction.AddInput tx _, rfl, by simp [Transaction.AddInput]⟩
  · refine ⟨_, _, by decide, rfl, rfl, by decide +kernel, ?_⟩
    unfold Transaction.GetTxID
    congr 3
  · exact ⟨⟨1, [⟨b!"00" ++ List.replicate 62 b!"a".head!, 0, 0, none, some [0, 0], 0x00000100⟩], [⟨0x0000040000000000, [0x51]⟩], 0⟩, by decide +kernel, rfl, by decide +kernel⟩

end Verif.Props
