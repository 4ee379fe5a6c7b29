import Verif.Model.Objects
import Verif.Model.Text
/-!
# The methods of `*Script` on pointers

A script object may be held by several fields (`PreviousTxScript`, `UnlockingScript`, `LockingScript`) of several objects. Model/Script has the methods on contents; here they take
the pointer. As in Model/Objects contents are values: sharing of bytes between two script objects is the subject of Model/Heap.
-/
namespace Verif.Obj
open Verif

/-- `*s = append(*s, p...)`: panics for nil, else the object gets longer. -/
def extend (σ : Store) (s : Ref) (p : Bytes) : Res Store := do
  let b ← σ.script s
  match s with
  | none => .panic
  | some k => pure { σ with scripts := σ.scripts.set k (b ++ p) }

/-- script/Script.go:129-137 `AppendPushData`: the encoding is made, and may fail, before the pointer is followed. On an error the store is as before. -/
def AppendPushData (σ : Store) (s : Ref) (d : Bytes) : Res Store := do
  let p ← EncodeParts [d]
  extend σ s p

/-- script/Script.go:140-147 `AppendPushDataHexString` -/
def AppendPushDataHexString (σ : Store) (s : Ref) (str : Bytes) : Res Store := do
  let h ← hexDecodeRes str
  AppendPushData σ s h

/-- script/Script.go:150-152 `AppendPushDataString` -/
def AppendPushDataString (σ : Store) (s : Ref) (str : Bytes) : Res Store := AppendPushData σ s str

/-- script/Script.go:155-163 `AppendPushDataArray` -/
def AppendPushDataArray (σ : Store) (s : Ref) (d : List Bytes) : Res Store := do
  let p ← EncodeParts d
  extend σ s p

/-- script/Script.go:166-174 `AppendPushDataStrings` -/
def AppendPushDataStrings (σ : Store) (s : Ref) (strs : List Bytes) : Res Store := AppendPushDataArray σ s (strs.map id)

/-- script/Script.go:177-179 `AppendOpCode` -/
def AppendOpCode (σ : Store) (s : Ref) (o : UInt8) : Res Store := extend σ s [o]

/-- script/Script.go:182-184 `ToString` -/
def ScriptToString (σ : Store) (s : Ref) : Res Bytes := do
  let b ← σ.script s
  pure (hexEncode b)

/-- script/Script.go:187-203 `ToASM` -/
def ToASM (σ : Store) (s : Ref) : Res Bytes := do
  let b ← σ.script s
  Verif.ToASM b

/-- script/Script.go:206-214 `IsP2PKH` -/
def IsP2PKH (σ : Store) (s : Ref) : Res Bool := do
  let b ← σ.script s
  pure (Verif.IsP2PKH b)

/-- script/Script.go:217-237 `IsP2PK` -/
def IsP2PK (σ : Store) (s : Ref) : Res Bool := do
  let b ← σ.script s
  Verif.IsP2PK b

/-- script/Script.go:240-247 `IsP2SH` -/
def IsP2SH (σ : Store) (s : Ref) : Res Bool := do
  let b ← σ.script s
  pure (Verif.IsP2SH b)

/-- script/Script.go:251-256 `IsData` -/
def IsData (σ : Store) (s : Ref) : Res Bool := do
  let b ← σ.script s
  Verif.IsData b

/-- script/Script.go:259-281 `IsMultisigOut` -/
def IsMultisigOut (σ : Store) (s : Ref) : Res Bool := do
  let b ← σ.script s
  Verif.IsMultisigOut b

/-- script/Script.go:288-303 `GetPublicKeyHash`: nil is checked. -/
def GetPublicKeyHash (σ : Store) (s : Ref) : Res Bytes := do
  let b ← scriptOf σ s
  Verif.GetPublicKeyHash b

/-- transaction/output/Output.go:152-154 `GetLockingScriptHexString` -/
def GetLockingScriptHexString (σ : Store) (o : Ref) : Res Bytes := do
  let x ← σ.output o
  let b ← σ.script x.LockingScript
  pure (hexEncode b)

/-- transaction/output/Output.go:156-161 `String` -/
def OutputString (σ : Store) (o : Ref) : Res Bytes := do
  let x ← σ.output o
  let b ← σ.script x.LockingScript
  pure (Output.String { Satoshis := x.Satoshis, LockingScript := b })

/-- transaction/input/Input.go:92-99 `String` (it does not look at `PreviousTxScript`). -/
def InputString (σ : Store) (i : Ref) : Res Bytes := do
  let x ← σ.input i
  let b ← σ.script x.UnlockingScript
  Input.String { PreviousTxID := x.PreviousTxID, PreviousTxOutIndex := x.PreviousTxOutIndex, PreviousTxSatoshis := x.PreviousTxSatoshis, PreviousTxScript := none,
                 UnlockingScript := some b, SequenceNumber := x.SequenceNumber }

end Verif.Obj
