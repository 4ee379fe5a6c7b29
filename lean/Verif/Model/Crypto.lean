import Verif.Go.Hex
/-!
# crypto/Hash.go, crypto/Encryption.go
-/
namespace Verif

/-- The external hash functions used by crypto/Hash.go: `crypto/sha256` and `golang.org/x/crypto/ripemd160`.
They are arbitrary functions with the right output sizes; every theorem holds for all of them. -/
structure HashFns where
  sha256 : Bytes → Bytes
  ripemd160 : Bytes → Bytes
  sha256_length : ∀ b, (sha256 b).length = 32
  ripemd160_length : ∀ b, (ripemd160 b).length = 20

/-- crypto/Hash.go:10-13 `Sha256` -/
def Sha256 (H : HashFns) (b : Bytes) : Bytes := H.sha256 b

/-- crypto/Hash.go:16-20 `Sha256d` -/
def Sha256d (H : HashFns) (b : Bytes) : Bytes :=
  let first := Sha256 H b
  let second := Sha256 H first
  second

/-- crypto/Hash.go:23-27 `Ripemd160` -/
def Ripemd160 (H : HashFns) (b : Bytes) : Bytes := H.ripemd160 b

/-- crypto/Hash.go:30-33 `Hash160` -/
def Hash160 (H : HashFns) (b : Bytes) : Bytes :=
  let hash := Sha256 H b
  Ripemd160 H hash

end Verif
