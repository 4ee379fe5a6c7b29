import Verif.Model.Tx
import Verif.Model.Float
/-!
# The text renderings: script/Script.go `ToString`, transaction/input/Input.go `String`, transaction/output/Output.go `String`

`fmt.Sprintf` itself is not in the repository; the verbs used here are modelled from its documentation and source: `%d` and `%x` of unsigned
integers (no padding), `%x` of a string (hex of its bytes), `%x` of a pointer to a byte slice at top level (`&` and then the hex of the bytes).
-/
namespace Verif

/-- script/Script.go:182-184 `ToString` -/
def Script.ToString (s : Script) : Bytes := hexEncode s

/-- `fmt` verb `%x` of an unsigned integer: lower-case hex without padding. -/
def fmtX (n : Nat) : Bytes := if n = 0 then [48] else (digitsLE 16 (n.log2 + 1) n).reverse.map fun d => hexChar (UInt8.ofNat d)

/-- transaction/input/Input.go:92-99 `String`. `len(*i.UnlockingScript)` dereferences a nil pointer when there is no unlocking script. The txid is a
string (the `%x` verb gives the hex of its characters) and the script a pointer (`&` and the hex). -/
def Input.String (i : Input) : Res Bytes :=
  match i.UnlockingScript with
  | none => .panic
  | some s => .ok (b!"prevTxHash:   " ++ hexEncode i.PreviousTxID ++ [10] ++
      b!"prevOutIndex: " ++ decimal i.PreviousTxOutIndex.toNat ++ [10] ++
      b!"scriptLen:    " ++ decimal s.length ++ [10] ++
      b!"script:       " ++ b!"&" ++ hexEncode s ++ [10] ++
      b!"sequence:     " ++ fmtX i.SequenceNumber.toNat ++ [10])

/-- transaction/output/Output.go:156-161 `String` (the locking script is not nil in this model). -/
def Output.String (o : Output) : Bytes :=
  b!"value:     " ++ decimal o.Satoshis.toNat ++ [10] ++
  b!"scriptLen: " ++ decimal o.LockingScript.length ++ [10] ++
  b!"script:    " ++ b!"&" ++ hexEncode o.LockingScript ++ [10]

end Verif
