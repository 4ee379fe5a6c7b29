import Verif.Lemmas.ScriptObjects3
import Verif.Props.Signing
/-!
# C136: one script in several places; scripts of transactions built separately
-/
namespace Verif.Obj
open Verif Verif.Props

/-- A pushed text, an opcode and a hex string that does not decode: two appends that succeed and one that fails. -/
def exSteps : List Step :=
  [.call .new, .call .new, .call (.addInput 0 { PreviousTxID := hexEncode (List.replicate 32 7), PreviousTxOutIndex := 1, PreviousTxSatoshis := 5, PreviousTxScript := some [1, 2], UnlockingScript := some [], SequenceNumber := 9 }), .call (.addOutput 0 { Satoshis := 3, LockingScript := [0x6a] }), .call (.addOutput 1 { Satoshis := 4, LockingScript := [0x6a] }),
   .append 0 (.locking 0) (.text [104, 105]), .append 1 (.locking 0) (.op 0x51), .append 1 (.locking 0) (.hex [1]), .append 0 (.previous 0) (.data [7]), .append 0 (.unlocking 0) (.array [[1], [2, 3]])]

/-- C136, each append method on a pointer to a script that holds `b`: the object gets what the method makes of `b`, nothing else changes; on an error nothing changes; it does not
panic. -/
theorem C136_append (σ : Store) (k : Nat) (b : Script) (h : σ.scripts[k]? = some b) (p : Piece) :
    (∃ b', p.onto b = .ok b' ∧ p.call σ (some k) = .ok { σ with scripts := σ.scripts.set k b' }) ∨ (∃ e, p.onto b = .err e ∧ p.call σ (some k) = .err e) := by
  rw [call_some h]
  cases hp : p.onto b with
  | ok b' => exact Or.inl ⟨b', rfl, rfl⟩
  | err e => exact Or.inr ⟨e, rfl, rfl⟩
  | panic => exact absurd hp (onto_panic p b)

theorem onto_nil (p : Piece) (b : Script) : p.onto b = (p.onto [] >>= fun e => .ok (b ++ e)) := by
  cases p with
  | data d => simp only [Piece.onto, Verif.AppendPushData]; cases EncodeParts [d] <;> simp
  | hex d =>
    simp only [Piece.onto, Verif.AppendPushDataHexString, Verif.AppendPushData]
    cases hexDecodeRes d with
    | ok y => simp only [Res.ok_bind]; cases EncodeParts [y] <;> simp
    | err e => rfl
    | panic => rfl
  | text d => simp only [Piece.onto, Verif.AppendPushDataString, Verif.AppendPushData]; cases EncodeParts [d] <;> simp
  | array d => simp only [Piece.onto, Verif.AppendPushDataArray]; cases EncodeParts d <;> simp
  | strings d => simp only [Piece.onto, Verif.AppendPushDataStrings, Verif.AppendPushDataArray]; cases EncodeParts (d.map id) <;> simp
  | op o => simp [Piece.onto, Verif.AppendOpCode]

/-- C136, each append method on a nil pointer: an argument that cannot be encoded is found first and is an error, else it panics. -/
theorem C136_nil (σ : Store) (p : Piece) :
    (∃ e, p.onto [] = .err e ∧ p.call σ none = .err e) ∨ ((∃ e, p.onto [] = .ok e) ∧ p.call σ none = .panic) := by
  rw [call_none]
  cases hp : p.onto [] with
  | ok e => exact Or.inr ⟨⟨e, rfl⟩, rfl⟩
  | err e => exact Or.inl ⟨e, rfl, rfl⟩
  | panic => exact absurd hp (onto_panic p [])

/-- Both outcomes of the two theorems occur. -/
example : (Piece.text [104, 105]).onto [0x6a] = .ok [0x6a, 2, 104, 105] := by rfl
example : ∃ e, (Piece.hex [1]).onto [0x6a] = .err e := ⟨_, rfl⟩
example : (Piece.hex [1]).call Store.empty none ≠ .panic ∧ (Piece.op 1).call Store.empty none = .panic := ⟨(fun h => nomatch h), rfl⟩

/-- C136, the reading methods of a script through a pointer that shows `x` (`none`: nil): all panic on nil but `GetPublicKeyHash`, which has an error for it. -/
theorem C136_read (σ : Store) (r : Ref) (x : Option Script) (h : seesScript σ r x) :
    ScriptToString σ r = (match x with | none => .panic | some b => .ok (hexEncode b)) ∧
    ToASM σ r = (match x with | none => .panic | some b => Verif.ToASM b) ∧
    IsP2PKH σ r = (match x with | none => .panic | some b => .ok (Verif.IsP2PKH b)) ∧
    IsP2PK σ r = (match x with | none => .panic | some b => Verif.IsP2PK b) ∧
    IsP2SH σ r = (match x with | none => .panic | some b => .ok (Verif.IsP2SH b)) ∧
    IsData σ r = (match x with | none => .panic | some b => Verif.IsData b) ∧
    IsMultisigOut σ r = (match x with | none => .panic | some b => Verif.IsMultisigOut b) ∧
    GetPublicKeyHash σ r = Verif.GetPublicKeyHash x := by
  cases r with
  | none =>
    have hx : x = none := h
    subst hx
    exact ⟨rfl, rfl, rfl, rfl, rfl, rfl, rfl, rfl⟩
  | some k =>
    obtain ⟨b, rfl, hb⟩ := seesScript_some h
    simp only [ScriptToString, ToASM, IsP2PKH, IsP2PK, IsP2SH, IsData, IsMultisigOut, GetPublicKeyHash, scriptOf, Store.script, index_some hb, Res.ok_bind, Res.pure_eq, and_self]

/-- C136, the texts of an input and an output: the script pointer is followed without a check, that of the previous output is not looked at. -/
theorem C136_texts (σ : Store) :
    (∀ (n : Nat) (o : OutputObj) (x : Option Script), σ.outputs[n]? = some o → seesScript σ o.LockingScript x →
      OutputString σ (some n) = (match x with | none => .panic | some b => .ok (Output.String ⟨o.Satoshis, b⟩)) ∧
      GetLockingScriptHexString σ (some n) = (match x with | none => .panic | some b => .ok (hexEncode b))) ∧
    (∀ (n : Nat) (o : InputObj) (x y : Option Script), σ.inputs[n]? = some o → seesScript σ o.UnlockingScript x →
      InputString σ (some n) = Input.String ⟨o.PreviousTxID, o.PreviousTxOutIndex, o.PreviousTxSatoshis, y, x, o.SequenceNumber⟩) := by
  constructor
  · intro n o x ho hx
    simp only [OutputString, GetLockingScriptHexString, Store.output, index_some ho, Res.ok_bind]
    cases hr : o.LockingScript with
    | none =>
      rw [hr] at hx
      have hx : x = none := hx
      subst hx
      exact ⟨rfl, rfl⟩
    | some k =>
      rw [hr] at hx
      obtain ⟨b, rfl, hb⟩ := seesScript_some hx
      simp only [Store.script, index_some hb, Res.ok_bind, Res.pure_eq, and_self]
  · intro n o x y ho hx
    simp only [InputString, Store.input, index_some ho, Res.ok_bind]
    cases hr : o.UnlockingScript with
    | none =>
      rw [hr] at hx
      have hx : x = none := hx
      subst hx
      rfl
    | some k =>
      rw [hr] at hx
      obtain ⟨b, rfl, hb⟩ := seesScript_some hx
      simp only [Store.script, index_some hb, Res.ok_bind]
      rfl

/-- C136: an append changes the one script object. Every field, in whatever input or output of whatever transaction, that holds this object shows the longer script, every other
field what it showed. -/
theorem C136_shared (σ σ' : Store) (r : Ref) (p : Piece) (h : p.call σ r = .ok σ') :
    ∃ k b e, r = some k ∧ σ.scripts[k]? = some b ∧ p.onto [] = .ok e ∧ σ' = { σ with scripts := σ.scripts.set k (b ++ e) } ∧
      ∀ (u : Nat) (x : TxObj) (U : Transaction), σ.txs[u]? = some x → Reads σ u U →
        ∃ is os, Reads σ' u { U with Inputs := is, Outputs := os } ∧ is.length = U.Inputs.length ∧ os.length = U.Outputs.length ∧
          (∀ (j n : Nat) (o : InputObj) (i : Input), (σ.refs x.Inputs)[j]? = some (some n) → σ.inputs[n]? = some o → U.Inputs[j]? = some i →
            is[j]? = some { i with PreviousTxScript := if o.PreviousTxScript = some k then some (b ++ e) else i.PreviousTxScript,
                                   UnlockingScript := if o.UnlockingScript = some k then some (b ++ e) else i.UnlockingScript }) ∧
          (∀ (j n : Nat) (o : OutputObj) (y : Output), (σ.refs x.Outputs)[j]? = some (some n) → σ.outputs[n]? = some o → U.Outputs[j]? = some y →
            os[j]? = some { y with LockingScript := if o.LockingScript = some k then b ++ e else y.LockingScript }) := by
  cases r with
  | none =>
    rw [call_none] at h
    split at h <;> cases h
  | some k =>
    cases hb : σ.scripts[k]? with
    | none =>
      exfalso
      have ex : ∀ q, extend σ (some k) q = .panic := fun q => by simp only [extend, Store.script, index_none hb, Res.panic_bind]
      cases p with
      | data d => simp only [Piece.call, AppendPushData, ex] at h; cases hd : EncodeParts [d] <;> rw [hd] at h <;> cases h
      | hex d =>
        simp only [Piece.call, AppendPushDataHexString, AppendPushData, ex] at h
        cases hd : hexDecodeRes d with
        | ok y => rw [hd] at h; simp only [Res.ok_bind] at h; cases hd : EncodeParts [y] <;> rw [hd] at h <;> cases h
        | err e => rw [hd] at h; cases h
        | panic => rw [hd] at h; cases h
      | text d => simp only [Piece.call, AppendPushDataString, AppendPushData, ex] at h; cases hd : EncodeParts [d] <;> rw [hd] at h <;> cases h
      | array d => simp only [Piece.call, AppendPushDataArray, ex] at h; cases hd : EncodeParts d <;> rw [hd] at h <;> cases h
      | strings d => simp only [Piece.call, AppendPushDataStrings, AppendPushDataArray, ex] at h; cases hd : EncodeParts (d.map id) <;> rw [hd] at h <;> cases h
      | op d => simp only [Piece.call, AppendOpCode, ex] at h; cases h
    | some b =>
      have hk : k < σ.scripts.length := (List.getElem?_eq_some_iff.1 hb).1
      rw [call_some hb, onto_nil] at h
      cases he : p.onto [] with
      | err e => rw [he] at h; cases h
      | panic => rw [he] at h; cases h
      | ok e =>
        rw [he] at h
        simp only [Res.ok_bind] at h
        cases h
        refine ⟨k, b, e, rfl, hb, rfl, rfl, ?_⟩
        intro u x U hx hU
        obtain ⟨x', hx', w1, w2, hv, hl, hi, hos⟩ := id hU
        rw [hx] at hx'; cases hx'
        refine ⟨_, _, reads_swap hk (b ++ e) hx hU, by rw [List.length_zipWith, hi.length_eq, Nat.min_self], by rw [List.length_zipWith, hos.length_eq, Nat.min_self], ?_, ?_⟩
        · intro j n o i h1 h2 h3
          rw [List.getElem?_zipWith, h1, h3]
          simp [swapIn, h2]
        · intro j n o y h1 h2 h3
          rw [List.getElem?_zipWith, h1, h3]
          simp [swapOut, h2]

/-- C136: programs that build transactions (not from bytes) and append to the scripts of their inputs and outputs through the fields: every transaction always shows what its own
steps computed. An append changes the one field of the one transaction, an error changes nothing, and panics happen where the functions on values panic. -/
theorem C136_history (H : HashFns) (g : Nat → Nat) (cs : List Step) (hb : ∀ c ∈ cs, c.built) :
    (runSteps H g cs Store.empty = .panic ∧ runStepValues H cs ⟨[], []⟩ = .panic) ∨
    ∃ σ v, runSteps H g cs Store.empty = .ok σ ∧ runStepValues H cs ⟨[], []⟩ = .ok v ∧ σ.txs.length = v.txs.length ∧
      ∀ (t : Nat) (T : Transaction), v.txs[t]? = some T → Reads σ t T := by
  rcases steps_sim H g cs hb empty_sim3 with h | ⟨σ, v, h1, h2, h3⟩
  · exact Or.inl h
  · exact Or.inr ⟨σ, v, h1, h2, h3.sim.len, h3.sim.reads⟩

/-- The program `exSteps` runs through, and its first output is the longer script. -/
example : ∃ σ T, runSteps toyH id exSteps Store.empty = .ok σ ∧ Reads σ 0 T ∧ T.Outputs = [{ Satoshis := 3, LockingScript := [0x6a, 2, 104, 105] }] ∧
    T.Inputs.map (·.UnlockingScript) = [some [1, 1, 2, 2, 3]] := by
  have hv : ∃ v T, runStepValues toyH exSteps ⟨[], []⟩ = .ok v ∧ v.txs[0]? = some T ∧ T.Outputs = [{ Satoshis := 3, LockingScript := [0x6a, 2, 104, 105] }] ∧
    T.Inputs.map (·.UnlockingScript) = [some [1, 1, 2, 2, 3]] := ⟨_, _, rfl, rfl, rfl, rfl⟩
  obtain ⟨v, T, hv, hT, h1, h2⟩ := hv
  rcases C136_history toyH id exSteps (by simp [exSteps, Step.built]) with ⟨-, h⟩ | ⟨σ, v', k1, k2, -, k3⟩
  · rw [hv] at h; cases h
  · rw [hv] at k2; cases k2
    exact ⟨σ, T, k1, k3 0 T hT, h1, h2⟩

/-- A transaction with the output `o`, and one whose input has as the script of the previous output that of `o`, the natural way to fill in the field:
`tx2.AddInput(&Input{..., PreviousTxScript: tx1.GetOutputs()[0].LockingScript})`; then an opcode is appended to this script of the input. -/
def exScriptSharing (g : Nat → Nat) (o : Output) (id : Bytes) (op : UInt8) : Res Store := do
  let a := New Store.empty
  let b := New a.1
  let p := mkOutput b.1 o
  let σ ← AddOutput g p.1 0 p.2
  let r ← (Place.locking 0).pointer σ 0
  let q := σ.newInput { PreviousTxID := id, PreviousTxOutIndex := 0, PreviousTxSatoshis := o.Satoshis, PreviousTxScript := r, UnlockingScript := none, SequenceNumber := 0xFFFFFFFF }
  let σ ← AddInput g q.1 1 q.2
  let r' ← (Place.previous 0).pointer σ 1
  AppendOpCode σ r' op

/-- C136, the claim "transactions are independent" fails when the field is filled in with the script of another transaction's output: appending to it in the second changes the
first (for every output, opcode and growth policy). -/
theorem C136_shared_violated (g : Nat → Nat) (o : Output) (id : Bytes) (op : UInt8) :
    ∃ σ, exScriptSharing g o id op = .ok σ ∧ Reads σ 0 { Transaction.New with Outputs := [{ o with LockingScript := o.LockingScript ++ [op] }] } := by
  refine ⟨_, rfl, ?_⟩
  refine ⟨_, rfl, ?_, ?_, rfl, rfl, ?_, ?_⟩
  · exact ⟨le_refl _, Or.inl rfl⟩
  · exact ⟨show 0 + 1 ≤ 0 + 1 + g 0 by omega, Or.inr ⟨some 0 :: List.replicate (g 0) none, rfl, show 0 + 1 + g 0 ≤ _ by simp; omega⟩⟩
  · exact .nil
  · exact .cons ⟨0, _, rfl, rfl, rfl, rfl, rfl⟩ .nil

end Verif.Obj
