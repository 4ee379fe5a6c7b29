import Verif.Model.SigHash
/-!
# Transactions as the Go program holds them: pointers to inputs, outputs and scripts

`Transaction.Inputs` is a `[]*input.Input`, an input holds `*script.Script` fields, methods take `*Transaction`. Model/Tx and Model/SigHash keep the objects in place of the pointers;
here the pointers are explicit: objects live in a store, a pointer is `nil` or an object number, and `[]*Input`, `[]*Output` are slice headers into arrays of pointers.
Script contents are values here: sharing of bytes between script objects is the subject of Model/Heap.
-/
namespace Verif.Obj

/-- A Go pointer: `nil` or the number of an object. -/
abbrev Ref := Option Nat

/-- transaction/input/Input.go:25-32 `Input` -/
structure InputObj where
  PreviousTxID : Bytes
  PreviousTxOutIndex : UInt32
  PreviousTxSatoshis : UInt64
  PreviousTxScript : Ref
  UnlockingScript : Ref
  SequenceNumber : UInt32
deriving DecidableEq, Repr

/-- transaction/output/Output.go:25-28 `Output` -/
structure OutputObj where
  Satoshis : UInt64
  LockingScript : Ref
deriving DecidableEq, Repr

/-- A `[]*input.Input` or `[]*output.Output`: array number, length, capacity. The code never re-slices these, so they start at the beginning of the array. The nil slice
has capacity 0. -/
structure RefSlice where
  arr : Nat
  len : Nat
  cap : Nat
deriving DecidableEq, Repr

/-- transaction/Transaction.go:37-42 `Transaction` -/
structure TxObj where
  Version : UInt32
  Inputs : RefSlice
  Outputs : RefSlice
  Locktime : UInt32
deriving DecidableEq, Repr

/-- All objects of a run. Objects are never freed. -/
structure Store where
  scripts : List Bytes
  inputs : List InputObj
  outputs : List OutputObj
  arrays : List (List Ref)
  txs : List TxObj
  signers : List InternalSigner

/-- The store of a program that has made no object yet. -/
def Store.empty : Store := ⟨[], [], [], [], [], []⟩

namespace Store

/-- `*p` for a `*script.Script`: panics for nil. -/
def script (σ : Store) : Ref → Res Bytes
  | none => .panic
  | some k => index σ.scripts k

/-- `*p` for a `*input.Input`: panics for nil. -/
def input (σ : Store) : Ref → Res InputObj
  | none => .panic
  | some k => index σ.inputs k

/-- `*p` for a `*output.Output`: panics for nil. -/
def output (σ : Store) : Ref → Res OutputObj
  | none => .panic
  | some k => index σ.outputs k

/-- `*p` for a `*Transaction`: panics for nil. -/
def tx (σ : Store) : Ref → Res TxObj
  | none => .panic
  | some k => index σ.txs k

/-- The pointers in a slice. -/
def refs (σ : Store) (s : RefSlice) : List Ref := (σ.arrays.getD s.arr []).take s.len

/-- A new script object, `&Script{...}` with contents `b`. -/
def newScript (σ : Store) (b : Bytes) : Store × Ref := ({ σ with scripts := σ.scripts ++ [b] }, some σ.scripts.length)

/-- A new input object, `&Input{...}`. -/
def newInput (σ : Store) (i : InputObj) : Store × Ref := ({ σ with inputs := σ.inputs ++ [i] }, some σ.inputs.length)

/-- A new output object, `&Output{...}`. -/
def newOutput (σ : Store) (o : OutputObj) : Store × Ref := ({ σ with outputs := σ.outputs ++ [o] }, some σ.outputs.length)

/-- A new transaction object. -/
def newTx (σ : Store) (t : TxObj) : Store × Ref := ({ σ with txs := σ.txs ++ [t] }, some σ.txs.length)

/-- `append(s, r)` for a slice of pointers: in place when there is capacity left, else into a new array with `g len` extra entries (`g` is the growth policy of the runtime,
any function). -/
def append (g : Nat → Nat) (σ : Store) (s : RefSlice) (r : Ref) : Store × RefSlice :=
  if s.len < s.cap then
    ({ σ with arrays := σ.arrays.set s.arr ((σ.arrays.getD s.arr []).set s.len r) }, { s with len := s.len + 1 })
  else
    ({ σ with arrays := σ.arrays ++ [σ.refs s ++ [r] ++ List.replicate (g s.len) none] }, ⟨σ.arrays.length, s.len + 1, s.len + 1 + g s.len⟩)

/-- Store the transaction object `k`. -/
def setTx (σ : Store) (k : Nat) (t : TxObj) : Store := { σ with txs := σ.txs.set k t }

/-- Store the input object `k`. -/
def setInput (σ : Store) (k : Nat) (i : InputObj) : Store := { σ with inputs := σ.inputs.set k i }

end Store

/-! ## Building transactions -/

/-- transaction/Transaction.go:45-52 `New` -/
def New (σ : Store) : Store × Ref := σ.newTx { Version := 1, Inputs := ⟨0, 0, 0⟩, Outputs := ⟨0, 0, 0⟩, Locktime := 0 }

/-- transaction/Transaction.go:118-120 `AddInput`: stores the pointer. -/
def AddInput (g : Nat → Nat) (σ : Store) (bt : Nat) (i : Ref) : Res Store := do
  let t ← σ.tx (some bt)
  let r := σ.append g t.Inputs i
  pure (r.1.setTx bt { t with Inputs := r.2 })

/-- transaction/Transaction.go:154-157 `AddOutput`: stores the pointer. -/
def AddOutput (g : Nat → Nat) (σ : Store) (bt : Nat) (o : Ref) : Res Store := do
  let t ← σ.tx (some bt)
  let r := σ.append g t.Outputs o
  pure (r.1.setTx bt { t with Outputs := r.2 })

/-- An optional script as an object. -/
def newScript? (σ : Store) : Option Bytes → Store × Ref
  | none => (σ, none)
  | some b => σ.newScript b

/-- An input object with the given contents, its scripts being new objects (what the constructors of transaction/input/Input.go:35-90 and `From` return). -/
def mkInput (σ : Store) (i : Input) : Store × Ref :=
  let a := newScript? σ i.PreviousTxScript
  let b := newScript? a.1 i.UnlockingScript
  b.1.newInput { PreviousTxID := i.PreviousTxID, PreviousTxOutIndex := i.PreviousTxOutIndex, PreviousTxSatoshis := i.PreviousTxSatoshis,
                 PreviousTxScript := a.2, UnlockingScript := b.2, SequenceNumber := i.SequenceNumber }

/-- An output object with the given contents (what the constructors of transaction/output/Output.go:31-148 return). -/
def mkOutput (σ : Store) (o : Output) : Store × Ref :=
  let a := σ.newScript o.LockingScript
  a.1.newOutput { Satoshis := o.Satoshis, LockingScript := a.2 }

/-- transaction/Transaction.go:123-141 `From` -/
def From (g : Nat → Nat) (σ : Store) (bt : Nat) (txID : Bytes) (vout : UInt32) (scriptSig : Bytes) (satoshis : UInt64) : Res Store := do
  let pts ← Script.NewFromHexString scriptSig
  let r := mkInput σ { PreviousTxID := txID, PreviousTxOutIndex := vout, PreviousTxSatoshis := satoshis, PreviousTxScript := some pts,
                       UnlockingScript := none, SequenceNumber := 0xffffffff }
  AddInput g r.1 bt r.2

/-- transaction/Transaction.go:161-169 `PayTo` -/
def PayTo (g : Nat → Nat) (σ : Store) (bt : Nat) (addr : Bytes) (satoshis : UInt64) : Res Store := do
  let o ← Output.NewP2PKHFromAddress addr satoshis
  let r := mkOutput σ o
  AddOutput g r.1 bt r.2

/-- The objects a successful parse creates for the inputs, transaction/Transaction.go:83-91. -/
def addInputs (g : Nat → Nat) (bt : Nat) : List Input → Store → Res Store
  | [], σ => .ok σ
  | i :: is, σ => do
    let r := mkInput σ i
    let σ' ← AddInput g r.1 bt r.2
    addInputs g bt is σ'

/-- The objects a successful parse creates for the outputs, transaction/Transaction.go:96-103. -/
def addOutputs (g : Nat → Nat) (bt : Nat) : List Output → Store → Res Store
  | [], σ => .ok σ
  | o :: os, σ => do
    let r := mkOutput σ o
    let σ' ← AddOutput g r.1 bt r.2
    addOutputs g bt os σ'

/-- transaction/Transaction.go:66-115 `NewFromBytes`. Simplification: the objects are created after the whole input has been parsed (by the value-level model), not while it is
being parsed; a failed parse leaves no reachable object either way. -/
def NewFromBytes (g : Nat → Nat) (σ : Store) (b : Slice) : Res (Store × Ref) := do
  let t ← Transaction.NewFromBytes b
  let r := σ.newTx { Version := t.Version, Inputs := ⟨0, 0, 0⟩, Outputs := ⟨0, 0, 0⟩, Locktime := t.Locktime }
  let σ₁ ← addInputs g σ.txs.length t.Inputs r.1
  let σ₂ ← addOutputs g σ.txs.length t.Outputs σ₁
  pure (σ₂, r.2)

/-! ## Reading -/

/-- transaction/input/Input.go:102-122 `ToBytes` on a pointer. -/
def inputToBytes (σ : Store) (clear : Bool) (p : Ref) : Res Bytes := do
  let i ← σ.input p
  let s ← if clear then Res.ok [0x00]
    else match i.UnlockingScript with
      | none => .ok (VarInt 0)
      | some k => do
        let s ← σ.script (some k)
        pure (VarInt (UInt64.ofNat s.length) ++ s)
  pure (ReverseBytes (hexDecodeIgnore i.PreviousTxID) ++ putUint32 i.PreviousTxOutIndex ++ s ++ putUint32 i.SequenceNumber)

/-- transaction/output/Output.go:164-174 `ToBytes` and :178-189 `GetBytesForSigHash` on a pointer. -/
def outputToBytes (σ : Store) (p : Ref) : Res Bytes := do
  let o ← σ.output p
  let s ← σ.script o.LockingScript
  pure (putUint64 o.Satoshis ++ VarInt (UInt64.ofNat s.length) ++ s)

/-- `for i, in := range bt.GetInputs()`, transaction/Transaction.go:239-247 (`in.ToBytes` is called, and may panic, at every position). -/
def inputsHelper (σ : Store) (index : Int) (scriptPubKey : Option Bytes) : Nat → List Ref → Res Bytes
  | _, [] => .ok []
  | i, p :: ps => do
    let s ← inputToBytes σ scriptPubKey.isSome p
    let rest ← inputsHelper σ index scriptPubKey (i + 1) ps
    pure ((match scriptPubKey with
      | some spk => if (i : Int) = index then VarInt (UInt64.ofNat spk.length) ++ spk else s
      | none => s) ++ rest)

/-- A loop that appends one byte string per pointer. -/
def concatMap (f : Ref → Res Bytes) : List Ref → Res Bytes
  | [] => .ok []
  | p :: ps => do
    let a ← f p
    let b ← concatMap f ps
    pure (a ++ b)

/-- transaction/Transaction.go:232-259 `toBytesHelper` -/
def toBytesHelper (σ : Store) (bt : Nat) (index : Int) (scriptPubKey : Option Bytes) : Res Bytes := do
  let t ← σ.tx (some bt)
  let ins ← inputsHelper σ index scriptPubKey 0 (σ.refs t.Inputs)
  let outs ← concatMap (outputToBytes σ) (σ.refs t.Outputs)
  pure (putUint32 t.Version ++ VarInt (UInt64.ofNat (σ.refs t.Inputs).length) ++ ins ++
    VarInt (UInt64.ofNat (σ.refs t.Outputs).length) ++ outs ++ putUint32 t.Locktime)

/-- transaction/Transaction.go:222-224 `ToBytes` -/
def ToBytes (σ : Store) (bt : Nat) : Res Bytes := toBytesHelper σ bt 0 none

/-- transaction/Transaction.go:228-230 `ToBytesWithClearedInputs` -/
def ToBytesWithClearedInputs (σ : Store) (bt : Nat) (index : Int) (scriptPubKey : Option Bytes) : Res Bytes := toBytesHelper σ bt index scriptPubKey

/-- transaction/Transaction.go:211-213 `GetTxID` -/
def GetTxID (H : HashFns) (σ : Store) (bt : Nat) : Res Bytes := do
  let b ← ToBytes σ bt
  pure (hexEncode (ReverseBytes (Sha256d H b)))

/-- transaction/Transaction.go:144-146 `InputCount` -/
def InputCount (σ : Store) (bt : Nat) : Res Nat := do
  let t ← σ.tx (some bt)
  pure t.Inputs.len

/-- transaction/Transaction.go:149-151 `OutputCount` -/
def OutputCount (σ : Store) (bt : Nat) : Res Nat := do
  let t ← σ.tx (some bt)
  pure t.Outputs.len

/-- transaction/Transaction.go:190-192 `GetInputs`: the slice itself. -/
def GetInputs (σ : Store) (bt : Nat) : Res RefSlice := do
  let t ← σ.tx (some bt)
  pure t.Inputs

/-- transaction/Transaction.go:195-197 `GetOutputs`: the slice itself. -/
def GetOutputs (σ : Store) (bt : Nat) : Res RefSlice := do
  let t ← σ.tx (some bt)
  pure t.Outputs

/-- transaction/Transaction.go:173-187 `IsCoinbase` -/
def IsCoinbase (σ : Store) (bt : Nat) : Res Bool := do
  let t ← σ.tx (some bt)
  match σ.refs t.Inputs with
  | [p] => do
    let i ← σ.input p
    pure (if i.PreviousTxID ≠ Transaction.zeroTxID then false
      else i.PreviousTxOutIndex == 0xFFFFFFFF || i.SequenceNumber == 0xFFFFFFFF)
  | _ => pure false

/-- The loop of `GetTotalOutputSatoshis`, transaction/Transaction.go:202-204. -/
def totalLoop (σ : Store) : List Ref → UInt64 → Res UInt64
  | [], total => .ok total
  | p :: ps, total => do
    let o ← σ.output p
    totalLoop σ ps (total + o.Satoshis)

/-- transaction/Transaction.go:200-207 `GetTotalOutputSatoshis` -/
def GetTotalOutputSatoshis (σ : Store) (bt : Nat) : Res UInt64 := do
  let t ← σ.tx (some bt)
  totalLoop σ (σ.refs t.Outputs) 0

/-! ## Signing -/

/-- transaction/SignatureHash.go:101-113 `getPrevoutHash` -/
def getPrevoutHash (H : HashFns) (σ : Store) (t : TxObj) : Res Bytes := do
  let b ← concatMap (fun p => do
    let i ← σ.input p
    pure (ReverseBytes (hexDecodeIgnore i.PreviousTxID) ++ putUint32 i.PreviousTxOutIndex)) (σ.refs t.Inputs)
  pure (Sha256d H b)

/-- transaction/SignatureHash.go:115-125 `getSequenceHash` -/
def getSequenceHash (H : HashFns) (σ : Store) (t : TxObj) : Res Bytes := do
  let b ← concatMap (fun p => do
    let i ← σ.input p
    pure (putUint32 i.SequenceNumber)) (σ.refs t.Inputs)
  pure (Sha256d H b)

/-- transaction/SignatureHash.go:127-139 `getOutputsHash` -/
def getOutputsHash (H : HashFns) (σ : Store) (t : TxObj) (n : Int) : Res Bytes :=
  if n = -1 then do
    let b ← concatMap (outputToBytes σ) (σ.refs t.Outputs)
    pure (Sha256d H b)
  else if n < 0 then .panic
  else do
    let p ← index (σ.refs t.Outputs) n.toNat
    let b ← outputToBytes σ p
    pure (Sha256d H b)

/-- transaction/SignatureHash.go:17-99 `GetInputSignatureHash` -/
def GetInputSignatureHash (H : HashFns) (σ : Store) (bt : Nat) (inputNumber : UInt32) (sigHashFlag : UInt8) : Res Bytes := do
  let t ← σ.tx (some bt)
  let p ← index (σ.refs t.Inputs) inputNumber.toNat
  let i ← σ.input p
  if i.PreviousTxID = [] then .err "'PreviousTxID' not supplied"
  else match i.PreviousTxScript with
  | none => .err "'PreviousTxScript' not supplied"
  | some k => do
    let zero := List.replicate 32 (0 : UInt8)
    let hashPrevouts ← if sigHashFlag &&& sighash.AnyOneCanPay = 0 then getPrevoutHash H σ t else .ok zero
    let hashSequence ←
      if sigHashFlag &&& sighash.AnyOneCanPay = 0 ∧ sigHashFlag &&& 31 ≠ sighash.Single ∧ sigHashFlag &&& 31 ≠ sighash.None
      then getSequenceHash H σ t else .ok zero
    let hashOutputs ←
      if sigHashFlag &&& 31 ≠ sighash.Single ∧ sigHashFlag &&& 31 ≠ sighash.None then getOutputsHash H σ t (-1)
      else if sigHashFlag &&& 31 = sighash.Single ∧ inputNumber < UInt32.ofNat t.Outputs.len then
        getOutputsHash H σ t (Transaction.int32OfUint32 inputNumber)
      else .ok zero
    let prevScript ← σ.script (some k)
    let buf : Bytes := putUint32 t.Version ++ hashPrevouts ++ hashSequence ++
      ReverseBytes (hexDecodeIgnore i.PreviousTxID) ++ putUint32 i.PreviousTxOutIndex ++
      VarInt (UInt64.ofNat prevScript.length) ++ prevScript ++
      putUint64 i.PreviousTxSatoshis ++ putUint32 i.SequenceNumber ++ hashOutputs ++ putUint32 t.Locktime ++
      putUint32 sigHashFlag.toUInt32
    let ret := Sha256d H buf
    pure (ReverseBytes ret)

/-- transaction/Transaction.go:290-297 `ApplyUnlockingScript`: panics beyond the inputs, an error for a nil entry, else the input object gets the script pointer. -/
def ApplyUnlockingScript (σ : Store) (bt : Nat) (idx : UInt32) (s : Ref) : Res Store := do
  let t ← σ.tx (some bt)
  let p ← index (σ.refs t.Inputs) idx.toNat
  match p with
  | none => .err "no input at index"
  | some k => do
    let i ← σ.input (some k)
    pure (σ.setInput k { i with UnlockingScript := s })

/-- InternalSigner.go:25-27 and 53-55: the defaulted flag is stored in the signer. -/
def defaultFlag (σ : Store) (sg : Nat) (s : InternalSigner) : Store :=
  { σ with signers := σ.signers.set sg { s with SigHashFlag := s.effFlag } }

/-- transaction/signature/InternalSigner.go:24-47 `Sign`, of signer object `sg`. A call that can return an error after having changed the store is modelled by the store after the
call and the returned value or error. -/
def InternalSign (H : HashFns) (σ : Store) (sg : Nat) (idx : UInt32) (bt : Nat) : Res (Store × Except String Ref) := do
  let s ← index σ.signers sg
  let σ := defaultFlag σ sg s
  match GetInputSignatureHash H σ bt idx s.effFlag with
  | .panic => .panic
  | .err e => .ok (σ, .error e)
  | .ok sh =>
    match s.sign (ReverseBytes sh) with
    | .panic => .panic
    | .err e => .ok (σ, .error e)
    | .ok sig =>
      let r := σ.newScript (NewP2PKHUnlockingScript s.pubKey sig s.effFlag).1
      match ApplyUnlockingScript r.1 bt idx r.2 with
      | .panic => .panic
      | .err e => .ok (r.1, .error e)
      | .ok σ' => .ok (σ', .ok (some bt))

/-- The script `GetPublicKeyHash` is called on: a nil pointer, or the script object (InternalSigner.go:59). -/
def scriptOf (σ : Store) : Ref → Res (Option Bytes)
  | none => .ok none
  | some k => do
    let b ← σ.script (some k)
    pure (some b)

/-- One iteration of the loop of `SignAuto`, InternalSigner.go:57-68; `p` is the pointer the loop variable holds. -/
def signAutoStep (H : HashFns) (sg : Nat) (s : InternalSigner) (bt : Nat) (i : Nat) (p : Ref) (σ : Store) : Res Store := do
  let inp ← σ.input p
  let scr ← scriptOf σ inp.PreviousTxScript
  match GetPublicKeyHash scr with
  | .panic => .panic
  | r =>
    let pubKeyHash := match r with | .ok h => h | _ => []
    if hexEncode pubKeyHash = hexEncode (Hash160 H s.pubKey) then do
      let o ← InternalSign H σ sg (UInt32.ofNat i) bt
      pure o.1
    else .ok σ

/-- `for i, in := range unsignedTx.Inputs`: the slice is evaluated once, before the loop; its entries are read as the loop proceeds (nothing in the loop changes them). -/
def signAutoLoop (H : HashFns) (sg : Nat) (s : InternalSigner) (bt : Nat) : Nat → List Ref → Store → Res Store
  | _, [], σ => .ok σ
  | i, p :: ps, σ => do
    let σ' ← signAutoStep H sg s bt i p σ
    signAutoLoop H sg s bt (i + 1) ps σ'

/-- transaction/signature/InternalSigner.go:52-71 `SignAuto`, of signer object `sg`. -/
def InternalSignAuto (H : HashFns) (σ : Store) (sg : Nat) (bt : Nat) : Res (Store × Except String Ref) := do
  let s ← index σ.signers sg
  let σ := defaultFlag σ sg s
  let t ← σ.tx (some bt)
  let σ' ← signAutoLoop H sg s bt 0 (σ.refs t.Inputs) σ
  pure (σ', .ok (some bt))

/-- transaction/Signer.go:6-9 the `Signer` interface: any implementation, which may change the store as it likes. -/
structure Signer where
  Sign : UInt32 → Nat → Store → Res (Store × Except String Ref)
  SignAuto : Nat → Store → Res (Store × Except String Ref)

/-- An `InternalSigner` object as a `Signer`. -/
def internal (H : HashFns) (sg : Nat) : Signer := ⟨fun idx bt σ => InternalSign H σ sg idx bt, fun bt σ => InternalSignAuto H σ sg bt⟩

/-- `*bt = *signedTx` on success, transaction/Transaction.go:265-272 and 279-286. -/
def assign (bt : Nat) : Store × Except String Ref → Res (Store × Except String Unit)
  | (σ, .error e) => .ok (σ, .error e)
  | (σ, .ok r) => do
    let t ← σ.tx r
    pure (σ.setTx bt t, .ok ())

/-- transaction/Transaction.go:265-272 `Sign` -/
def Sign (σ : Store) (bt : Nat) (idx : UInt32) (s : Signer) : Res (Store × Except String Unit) := do
  let o ← s.Sign idx bt σ
  assign bt o

/-- transaction/Transaction.go:279-286 `SignAuto` -/
def SignAuto (σ : Store) (bt : Nat) (s : Signer) : Res (Store × Except String Unit) := do
  let o ← s.SignAuto bt σ
  assign bt o

end Verif.Obj
