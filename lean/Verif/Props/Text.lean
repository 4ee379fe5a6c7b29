import Verif.Model.Text
import Verif.Lemmas.TxBytes
import Verif.Props.HumanHash
import Verif.Props.Tx
/-!
# C73, C74: scripts as hex text; the text renderings of inputs and outputs
-/
namespace Verif.Props
open Verif Spec

/-! ## C73 -/

/-- An even number of hex digits of either case. -/
def HexText (t : Bytes) : Prop := t.length % 2 = 0 ∧ ∀ c ∈ t, (48 ≤ c ∧ c ≤ 57) ∨ (97 ≤ c ∧ c ≤ 102) ∨ (65 ≤ c ∧ c ≤ 70)

theorem hexText_iff (t : Bytes) : HexText t ↔ IsHex t := by
  unfold HexText IsHex
  constructor
  · rintro ⟨a, b⟩; exact ⟨a, fun c hc => (fromHexChar_isSome_iff c).mpr (b c hc)⟩
  · rintro ⟨a, b⟩; exact ⟨a, fun c hc => (fromHexChar_isSome_iff c).mp (b c hc)⟩

/-- C73 (a): a script written as hex and read back is the script; two digits per byte, lower case. -/
theorem C73_roundtrip (s : Script) : Script.NewFromHexString s.ToString = .ok s ∧ s.ToString.length = 2 * List.length s ∧
    ∀ c ∈ s.ToString, (48 ≤ c ∧ c ≤ 57) ∨ (97 ≤ c ∧ c ≤ 102) := by
  refine ⟨by simp [Script.NewFromHexString, Script.ToString], ?_, ?_⟩
  · simp only [Script.ToString, hexEncode_length]
  · intro c hc; exact hexEncode_lower s c hc

/-- C73 (b): exactly the texts with an even number of hex digits, of either case, are accepted; the script read is the one whose hex is the text in lower case;
everything else is refused with an error. -/
theorem C73_parse_iff (t : Bytes) (s : Script) :
    (Script.NewFromHexString t = .ok s ↔ HexText t ∧ s.ToString = t.map lowerChar) ∧
    ((Script.NewFromHexString t).isErr ↔ ¬ HexText t) ∧ Script.NewFromHexString t ≠ .panic := by
  have e : Script.NewFromHexString t = hexDecodeRes t := by
    unfold Script.NewFromHexString
    cases hexDecodeRes t <;> rfl
  rw [e, hexText_iff]
  refine ⟨?_, ?_, ?_⟩
  · rw [hexDecodeRes_ok_iff]
    constructor
    · rintro ⟨h, rfl⟩; exact ⟨h, hexEncode_decode h⟩
    · rintro ⟨h, h2⟩
      refine ⟨h, hexEncode_inj ?_⟩
      rw [hexEncode_decode h]; exact h2.symm
  · by_cases h : IsHex t
    · simp [hexDecodeRes_isHex h, h]
    · obtain ⟨x, hx⟩ := hexDecodeRes_not_isHex h
      simp [hx, h]
  · by_cases h : IsHex t
    · simp [hexDecodeRes_isHex h]
    · obtain ⟨x, hx⟩ := hexDecodeRes_not_isHex h
      simp [hx]

/-- C73 (c): different scripts have different texts, and a locking script handed over as hex arrives unchanged in `From` and `NewFromUTXO`. -/
theorem C73_handover (o : Output) (tx : Transaction) (txid : Bytes) (vout nSeq : UInt32) (sats : UInt64) (s s' : Script) :
    (s.ToString = s'.ToString → s = s') ∧ o.GetLockingScriptHexString = Script.ToString o.LockingScript ∧
    tx.From txid vout o.GetLockingScriptHexString sats =
      .ok { tx with Inputs := tx.Inputs ++ [⟨txid, vout, sats, some o.LockingScript, none, 0xffffffff⟩] } ∧
    Input.NewFromUTXO txid vout sats o.GetLockingScriptHexString nSeq = .ok ⟨txid, vout, sats, some o.LockingScript, none, nSeq⟩ := by
  refine ⟨hexEncode_inj, rfl, ?_, ?_⟩
  · simp [Transaction.From, Output.GetLockingScriptHexString, Script.NewFromHexString, Transaction.AddInput]
  · simp [Input.NewFromUTXO, Output.GetLockingScriptHexString, Script.NewFromHexString]

example : Script.NewFromHexString b!"76A9ff" = .ok [0x76, 0xa9, 0xff] ∧ (Script.NewFromHexString b!"76A").isErr ∧ (Script.NewFromHexString b!"7g").isErr := by decide +kernel

/-! ## C74 -/

/-- The lines of a text in which every line ends with a newline. -/
def linesOf (ls : List Bytes) : Bytes := ls.flatMap (· ++ [10])

theorem line_cut {a a' b b' : Bytes} (ha : (10 : UInt8) ∉ a) (ha' : (10 : UInt8) ∉ a') (h : a ++ 10 :: b = a' ++ 10 :: b') : a = a' ∧ b = b' := by
  induction a generalizing a' with
  | nil =>
    cases a' with
    | nil => simpa using h
    | cons x a' => simp at h ha'; exact absurd h.1 (by intro e; exact ha'.1 e)
  | cons y a ih =>
    cases a' with
    | nil => simp at h ha; exact absurd h.1.symm (by intro e; exact ha.1 e)
    | cons x a' =>
      simp only [List.cons_append, List.cons.injEq] at h
      obtain ⟨rfl, h⟩ := h
      obtain ⟨rfl, rfl⟩ := ih (fun m => ha (by simp [m])) (fun m => ha' (by simp [m])) h
      exact ⟨rfl, rfl⟩

theorem hexEncode_no_newline (b : Bytes) : (10 : UInt8) ∉ hexEncode b := by
  intro h
  rcases hexEncode_lower b 10 h with h | h <;> revert h <;> decide

theorem decimal_no_newline (n : Nat) : (10 : UInt8) ∉ decimal n := by
  intro h
  have := (decimal_spec n).1.2.1 10 h
  revert this; unfold IsDigit; decide

theorem decimal_inj {m n : Nat} (h : decimal m = decimal n) : m = n := by
  rw [← (decimal_spec m).2, h, (decimal_spec n).2]

theorem hexChar_lt : ∀ d : Fin 16, (fromHexChar (hexChar (UInt8.ofNat d.val))).map UInt8.toNat = some d.val ∧ hexChar (UInt8.ofNat d.val) ≠ 10 := by decide +kernel

theorem fmtX_no_newline (n : Nat) : (10 : UInt8) ∉ fmtX n := by
  unfold fmtX
  split_ifs
  · decide
  · intro h
    simp only [List.mem_map, List.mem_reverse] at h
    obtain ⟨d, hd, e⟩ := h
    exact (hexChar_lt ⟨d, (digits_full 16 (by norm_num) n).2.1 d hd⟩).2 e

/-- Value of a hex numeral. -/
def hexValue (s : Bytes) : Nat := s.foldl (fun acc c => acc * 16 + ((fromHexChar c).map UInt8.toNat).getD 0) 0

theorem fmtX_value (n : Nat) : hexValue (fmtX n) = n := by
  unfold fmtX
  split_ifs with h
  · subst h; rfl
  · obtain ⟨h1, h2, -⟩ := digits_full 16 (by norm_num) n
    have key : ∀ ds : List Nat, (∀ d ∈ ds, d < 16) → hexValue (ds.reverse.map fun d => hexChar (UInt8.ofNat d)) = digVal 16 ds := by
      intro ds
      induction ds with
      | nil => intro _; rfl
      | cons d ds ih =>
        intro hd
        have := ih (fun x hx => hd x (by simp [hx]))
        unfold hexValue at *
        rw [List.reverse_cons, List.map_append, List.foldl_append, this]
        simp only [List.map_cons, List.map_nil, List.foldl_cons, List.foldl_nil, (hexChar_lt ⟨d, hd d (by simp)⟩).1, Option.getD_some, digVal]
        omega
    rw [key _ h2, h1]

/-- C74 (a): the text of an input: five lines, with the *hex of the characters* of the txid and an ampersand before the script; a panic exactly when there is no unlocking
script (as in every input made by `From` and not yet signed). -/
theorem C74_input_text (i : Input) :
    (i.String = .panic ↔ i.UnlockingScript = none) ∧
    ∀ s, i.UnlockingScript = some s → ∃ index len seq : Bytes, IsNumeral index ∧ decValue index = i.PreviousTxOutIndex.toNat ∧ IsNumeral len ∧ decValue len = s.length ∧
      hexValue seq = i.SequenceNumber.toNat ∧
      i.String = .ok (linesOf [b!"prevTxHash:   " ++ hexEncode i.PreviousTxID, b!"prevOutIndex: " ++ index, b!"scriptLen:    " ++ len, b!"script:       &" ++ hexEncode s,
        b!"sequence:     " ++ seq]) := by
  constructor
  · unfold Input.String
    cases i.UnlockingScript <;> simp
  · intro s hs
    refine ⟨decimal i.PreviousTxOutIndex.toNat, decimal s.length, fmtX i.SequenceNumber.toNat, (decimal_spec _).1, (decimal_spec _).2, (decimal_spec _).1, (decimal_spec _).2,
      fmtX_value _, ?_⟩
    unfold Input.String
    rw [hs]
    simp [linesOf]

/-- C74 (b): the text of an output. -/
theorem C74_output_text (o : Output) :
    ∃ value len : Bytes, IsNumeral value ∧ decValue value = o.Satoshis.toNat ∧ IsNumeral len ∧ decValue len = o.LockingScript.length ∧
      o.String = linesOf [b!"value:     " ++ value, b!"scriptLen: " ++ len, b!"script:    &" ++ hexEncode o.LockingScript] := by
  refine ⟨decimal o.Satoshis.toNat, decimal o.LockingScript.length, (decimal_spec _).1, (decimal_spec _).2, (decimal_spec _).1, (decimal_spec _).2, ?_⟩
  simp [Output.String, linesOf]

theorem linesOf_inj : ∀ {l l' : List Bytes}, (∀ x ∈ l, (10 : UInt8) ∉ x) → (∀ x ∈ l', (10 : UInt8) ∉ x) → linesOf l = linesOf l' → l = l' := by
  intro l
  induction l with
  | nil =>
    intro l' _ _ h
    cases l' with
    | nil => rfl
    | cons x l' => simp [linesOf] at h
  | cons y l ih =>
    intro l' h1 h2 h
    cases l' with
    | nil => simp [linesOf] at h
    | cons x l' =>
      simp only [linesOf, List.flatMap_cons, List.append_assoc, List.singleton_append] at h
      obtain ⟨rfl, h3⟩ := line_cut (h1 y (by simp)) (h2 x (by simp)) h
      rw [ih (fun z hz => h1 z (by simp [hz])) (fun z hz => h2 z (by simp [hz])) h3]

/-- C74 (c): the texts are faithful: equal texts mean equal outputs, and for inputs equal txid, index, unlocking script and sequence. -/
theorem C74_faithful (i i' : Input) (t : Bytes) (h : i.String = .ok t) (h' : i'.String = .ok t) (o o' : Output) :
    (i.PreviousTxID = i'.PreviousTxID ∧ i.PreviousTxOutIndex = i'.PreviousTxOutIndex ∧ i.UnlockingScript = i'.UnlockingScript ∧ i.SequenceNumber = i'.SequenceNumber) ∧
    (o.String = o'.String → o = o') := by
  have nl : ∀ (p x : Bytes), (10 : UInt8) ∉ p → (10 : UInt8) ∉ x → (10 : UInt8) ∉ p ++ x := by
    intro p x hp hx hm
    rcases List.mem_append.mp hm with hm | hm
    · exact hp hm
    · exact hx hm
  constructor
  · rcases hu : i.UnlockingScript with _ | s
    · rw [(C74_input_text i).1.mpr hu] at h; cases h
    rcases hu' : i'.UnlockingScript with _ | s'
    · rw [(C74_input_text i').1.mpr hu'] at h'; cases h'
    have e : ∀ (j : Input) (s : Script), j.UnlockingScript = some s → j.String = .ok (linesOf [b!"prevTxHash:   " ++ hexEncode j.PreviousTxID,
        b!"prevOutIndex: " ++ decimal j.PreviousTxOutIndex.toNat, b!"scriptLen:    " ++ decimal s.length, b!"script:       &" ++ hexEncode s,
        b!"sequence:     " ++ fmtX j.SequenceNumber.toNat]) := by
      intro j s hj; unfold Input.String; rw [hj]; simp [linesOf]
    rw [e i s hu] at h; rw [e i' s' hu'] at h'
    injection h with h; injection h' with h'
    have hl := linesOf_inj ?_ ?_ (h.trans h'.symm)
    · simp only [List.cons.injEq, List.append_cancel_left_eq, and_true] at hl
      obtain ⟨h1, h2, -, h4, h5⟩ := hl
      refine ⟨hexEncode_inj h1, UInt32.toNat_inj.mp (decimal_inj h2), by rw [hexEncode_inj h4], UInt32.toNat_inj.mp ?_⟩
      rw [← fmtX_value i.SequenceNumber.toNat, h5, fmtX_value]
    all_goals
      intro x hx
      simp only [List.mem_cons, List.not_mem_nil, or_false] at hx
      rcases hx with rfl | rfl | rfl | rfl | rfl
      · exact nl _ _ (by decide) (hexEncode_no_newline _)
      · exact nl _ _ (by decide) (decimal_no_newline _)
      · exact nl _ _ (by decide) (decimal_no_newline _)
      · exact nl _ _ (by decide) (hexEncode_no_newline _)
      · exact nl _ _ (by decide) (fmtX_no_newline _)
  · intro h
    have e : ∀ o : Output, o.String = linesOf [b!"value:     " ++ decimal o.Satoshis.toNat, b!"scriptLen: " ++ decimal o.LockingScript.length, b!"script:    &" ++ hexEncode o.LockingScript] := by
      intro o; simp [Output.String, linesOf]
    rw [e, e] at h
    have hl := linesOf_inj ?_ ?_ h
    · simp only [List.cons.injEq, List.append_cancel_left_eq, and_true] at hl
      obtain ⟨h1, -, h3⟩ := hl
      obtain ⟨a, b⟩ := o; obtain ⟨a', b'⟩ := o'
      simp only at h1 h3
      rw [hexEncode_inj h3, UInt64.toNat_inj.mp (decimal_inj h1)]
    all_goals
      intro x hx
      simp only [List.mem_cons, List.not_mem_nil, or_false] at hx
      rcases hx with rfl | rfl | rfl
      · exact nl _ _ (by decide) (decimal_no_newline _)
      · exact nl _ _ (by decide) (decimal_no_newline _)
      · exact nl _ _ (by decide) (hexEncode_no_newline _)

/-- C74 (d), violation: the line named prevTxHash never shows a non-empty txid: it shows twice as many characters. -/
theorem C74_violation (i : Input) (h : IsTxId i.PreviousTxID) (s : Script) (hs : i.UnlockingScript = some s) :
    ∃ shown rest, i.String = .ok (b!"prevTxHash:   " ++ shown ++ 10 :: rest) ∧ (10 : UInt8) ∉ shown ∧ shown.length = 128 ∧ shown ≠ i.PreviousTxID := by
  obtain ⟨index, len, seq, -, -, -, -, -, e⟩ := (C74_input_text i).2 s hs
  refine ⟨hexEncode i.PreviousTxID, linesOf [b!"prevOutIndex: " ++ index, b!"scriptLen:    " ++ len, b!"script:       &" ++ hexEncode s,
        b!"sequence:     " ++ seq], ?_, hexEncode_no_newline _, ?_, ?_⟩
  · rw [e]; simp [linesOf]
  · rw [hexEncode_length, h.1]
  · intro e
    have := congrArg List.length e
    rw [hexEncode_length, h.1] at this
    omega

example : ({ Input.New with PreviousTxID := b!"ab" } : Input).String = .ok b!"prevTxHash:   6162\nprevOutIndex: 0\nscriptLen:    0\nscript:       &\nsequence:     ffffffff\n" := by decide +kernel
example : (Output.mk 50 [0x6a]).String = b!"value:     50\nscriptLen: 1\nscript:    &6a\n" := by decide +kernel

end Verif.Props
