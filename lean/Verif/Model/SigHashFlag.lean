import Verif.Model.SigHash
/-!
# transaction/signature/sighash/SigHashFlag.go: the rest of the constants
(`None`, `Single`, `AnyOneCanPay` and `AllForkID` are in Model/SigHash.)
-/
namespace Verif.sighash

/-- SigHashFlag.go:9 -/ def Old : UInt8 := 0x0
/-- SigHashFlag.go:10 -/ def All : UInt8 := 0x1
/-- SigHashFlag.go:17 -/ def NoneForkID : UInt8 := 0x2 ||| 0x40
/-- SigHashFlag.go:18 -/ def SingleForkID : UInt8 := 0x3 ||| 0x40
/-- SigHashFlag.go:19 -/ def AnyOneCanPayForkID : UInt8 := 0x80 ||| 0x40
/-- SigHashFlag.go:23 -/ def ForkID : UInt8 := 0x40
/-- SigHashFlag.go:27 -/ def Mask : UInt8 := 0x1f

end Verif.sighash
