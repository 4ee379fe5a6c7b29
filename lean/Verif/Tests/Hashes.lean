import Verif.Model.Crypto
/-!
# Concrete SHA-256 and RIPEMD-160

The theorems hold for every pair of hash functions with 32- and 20-byte results (`HashFns`). This file gives the real ones, from FIPS 180-4 and the RIPEMD-160
specification, on natural numbers below 2^32, so that the model can be run on the repository's own test vectors in the other files of this directory. Nothing in the
proofs depends on this file.
-/
namespace Verif.Tests
open Verif

/-- Evaluate `n` before going on (so that the kernel does not carry unevaluated terms along). -/
@[inline] def force {α : Type} (n : Nat) (f : Nat → α) : α := match n with
  | 0 => f 0
  | m + 1 => f (m + 1)

def m32 (n : Nat) : Nat := n % 4294967296
def rotr (x k : Nat) : Nat := Nat.lor (Nat.shiftRight x k) (m32 (Nat.shiftLeft x (32 - k)))
def rotl (x k : Nat) : Nat := Nat.lor (m32 (Nat.shiftLeft x k)) (Nat.shiftRight x (32 - k))
def not32 (x : Nat) : Nat := 4294967295 - x

/-- Big-endian bytes of a 32-bit word. -/
def be4 (x : Nat) : Bytes := [UInt8.ofNat (x / 16777216), UInt8.ofNat (x / 65536), UInt8.ofNat (x / 256), UInt8.ofNat x]
/-- Little-endian bytes of a 32-bit word. -/
def le4 (x : Nat) : Bytes := [UInt8.ofNat x, UInt8.ofNat (x / 256), UInt8.ofNat (x / 65536), UInt8.ofNat (x / 16777216)]

/-- 32-bit words of a byte string, most significant byte first. -/
def wordsBE : Bytes → List Nat
  | a :: b :: c :: d :: r => (a.toNat * 16777216 + b.toNat * 65536 + c.toNat * 256 + d.toNat) :: wordsBE r
  | _ => []
/-- 32-bit words of a byte string, least significant byte first. -/
def wordsLE : Bytes → List Nat
  | a :: b :: c :: d :: r => (d.toNat * 16777216 + c.toNat * 65536 + b.toNat * 256 + a.toNat) :: wordsLE r
  | _ => []

structure St8 where
  (a b c d e f g h : Nat)

def k256 : List Nat := [
  0x428a2f98, 0x71374491, 0xb5c0fbcf, 0xe9b5dba5, 0x3956c25b, 0x59f111f1, 0x923f82a4, 0xab1c5ed5, 0xd807aa98, 0x12835b01, 0x243185be, 0x550c7dc3, 0x72be5d74, 0x80deb1fe, 0x9bdc06a7, 0xc19bf174,
  0xe49b69c1, 0xefbe4786, 0x0fc19dc6, 0x240ca1cc, 0x2de92c6f, 0x4a7484aa, 0x5cb0a9dc, 0x76f988da, 0x983e5152, 0xa831c66d, 0xb00327c8, 0xbf597fc7, 0xc6e00bf3, 0xd5a79147, 0x06ca6351, 0x14292967,
  0x27b70a85, 0x2e1b2138, 0x4d2c6dfc, 0x53380d13, 0x650a7354, 0x766a0abb, 0x81c2c92e, 0x92722c85, 0xa2bfe8a1, 0xa81a664b, 0xc24b8b70, 0xc76c51a3, 0xd192e819, 0xd6990624, 0xf40e3585, 0x106aa070,
  0x19a4c116, 0x1e376c08, 0x2748774c, 0x34b0bcb5, 0x391c0cb3, 0x4ed8aa4a, 0x5b9cca4f, 0x682e6ff3, 0x748f82ee, 0x78a5636f, 0x84c87814, 0x8cc70208, 0x90befffa, 0xa4506ceb, 0xbef9a3f7, 0xc67178f2]

def bigS0 (a : Nat) : Nat := Nat.xor (Nat.xor (rotr a 2) (rotr a 13)) (rotr a 22)
def bigS1 (e : Nat) : Nat := Nat.xor (Nat.xor (rotr e 6) (rotr e 11)) (rotr e 25)
def smallS0 (x : Nat) : Nat := Nat.xor (Nat.xor (rotr x 7) (rotr x 18)) (Nat.shiftRight x 3)
def smallS1 (x : Nat) : Nat := Nat.xor (Nat.xor (rotr x 17) (rotr x 19)) (Nat.shiftRight x 10)
def ch (e f g : Nat) : Nat := Nat.xor (Nat.land e f) (Nat.land (not32 e) g)
def maj (a b c : Nat) : Nat := Nat.xor (Nat.xor (Nat.land a b) (Nat.land a c)) (Nat.land b c)

/-- The rounds, with the window of the next sixteen schedule words. -/
def rounds : List Nat → List Nat → St8 → St8
  | k :: ks, w0 :: w1 :: w2 :: w3 :: w4 :: w5 :: w6 :: w7 :: w8 :: w9 :: w10 :: w11 :: w12 :: w13 :: w14 :: w15 :: _, s =>
    force (m32 (s.h + bigS1 s.e + ch s.e s.f s.g + k + w0)) fun t1 =>
    force (m32 (bigS0 s.a + maj s.a s.b s.c + t1)) fun a =>
    force (m32 (s.d + t1)) fun e =>
    force (m32 (smallS1 w14 + w9 + smallS0 w1 + w0)) fun w =>
    rounds ks [w1, w2, w3, w4, w5, w6, w7, w8, w9, w10, w11, w12, w13, w14, w15, w] ⟨a, s.a, s.b, s.c, e, s.e, s.f, s.g⟩
  | _, _, s => s

def add8 (s t : St8) : St8 := ⟨m32 (s.a + t.a), m32 (s.b + t.b), m32 (s.c + t.c), m32 (s.d + t.d), m32 (s.e + t.e), m32 (s.f + t.f), m32 (s.g + t.g), m32 (s.h + t.h)⟩

/-- Blocks of 64 bytes. -/
def blocks256 : Nat → Bytes → St8 → St8
  | 0, _, s => s
  | n + 1, b, s => blocks256 n (b.drop 64) (add8 s (rounds k256 (wordsBE (b.take 64)) s))

/-- Message, 0x80, zeros up to 56 modulo 64; the length follows. -/
def pad (b : Bytes) : Bytes := b ++ 0x80 :: List.replicate ((119 - b.length % 64) % 64) 0

def sha256 (b : Bytes) : Bytes :=
  let m := pad b ++ be4 (b.length * 8 / 4294967296) ++ be4 (b.length * 8 % 4294967296)
  let s := blocks256 (m.length / 64) m ⟨0x6a09e667, 0xbb67ae85, 0x3c6ef372, 0xa54ff53a, 0x510e527f, 0x9b05688c, 0x1f83d9ab, 0x5be0cd19⟩
  be4 s.a ++ be4 s.b ++ be4 s.c ++ be4 s.d ++ be4 s.e ++ be4 s.f ++ be4 s.g ++ be4 s.h

theorem sha256_length (b : Bytes) : (sha256 b).length = 32 := rfl

/-! ## RIPEMD-160 -/

structure St5 where
  (a b c d e : Nat)

def rmdF : Nat → Nat → Nat → Nat → Nat
  | 0, x, y, z => Nat.xor (Nat.xor x y) z
  | 1, x, y, z => Nat.lor (Nat.land x y) (Nat.land (not32 x) z)
  | 2, x, y, z => Nat.xor (Nat.lor x (not32 y)) z
  | 3, x, y, z => Nat.lor (Nat.land x z) (Nat.land y (not32 z))
  | _, x, y, z => Nat.xor x (Nat.lor y (not32 z))

/-- One line of sixteen steps: word positions, rotations, function and constant. -/
def rmdLine (f k : Nat) (ws : List Nat) : List Nat → List Nat → St5 → St5
  | r :: rs, sh :: shs, s =>
    force (m32 (rotl (m32 (s.a + rmdF f s.b s.c s.d + ws.getD r 0 + k)) sh + s.e)) fun t =>
    force (rotl s.c 10) fun c10 =>
    rmdLine f k ws rs shs ⟨s.e, t, s.b, c10, s.d⟩
  | _, _, s => s

def rmdLeft (ws : List Nat) (s : St5) : St5 :=
  let s := rmdLine 0 0 ws [0, 1, 2, 3, 4, 5, 6, 7, 8, 9, 10, 11, 12, 13, 14, 15] [11, 14, 15, 12, 5, 8, 7, 9, 11, 13, 14, 15, 6, 7, 9, 8] s
  let s := rmdLine 1 0x5a827999 ws [7, 4, 13, 1, 10, 6, 15, 3, 12, 0, 9, 5, 2, 14, 11, 8] [7, 6, 8, 13, 11, 9, 7, 15, 7, 12, 15, 9, 11, 7, 13, 12] s
  let s := rmdLine 2 0x6ed9eba1 ws [3, 10, 14, 4, 9, 15, 8, 1, 2, 7, 0, 6, 13, 11, 5, 12] [11, 13, 6, 7, 14, 9, 13, 15, 14, 8, 13, 6, 5, 12, 7, 5] s
  let s := rmdLine 3 0x8f1bbcdc ws [1, 9, 11, 10, 0, 8, 12, 4, 13, 3, 7, 15, 14, 5, 6, 2] [11, 12, 14, 15, 14, 15, 9, 8, 9, 14, 5, 6, 8, 6, 5, 12] s
  rmdLine 4 0xa953fd4e ws [4, 0, 5, 9, 7, 12, 2, 10, 14, 1, 3, 8, 11, 6, 15, 13] [9, 15, 5, 11, 6, 8, 13, 12, 5, 12, 13, 14, 11, 8, 5, 6] s

def rmdRight (ws : List Nat) (s : St5) : St5 :=
  let s := rmdLine 4 0x50a28be6 ws [5, 14, 7, 0, 9, 2, 11, 4, 13, 6, 15, 8, 1, 10, 3, 12] [8, 9, 9, 11, 13, 15, 15, 5, 7, 7, 8, 11, 14, 14, 12, 6] s
  let s := rmdLine 3 0x5c4dd124 ws [6, 11, 3, 7, 0, 13, 5, 10, 14, 15, 8, 12, 4, 9, 1, 2] [9, 13, 15, 7, 12, 8, 9, 11, 7, 7, 12, 7, 6, 15, 13, 11] s
  let s := rmdLine 2 0x6d703ef3 ws [15, 5, 1, 3, 7, 14, 6, 9, 11, 8, 12, 2, 10, 0, 4, 13] [9, 7, 15, 11, 8, 6, 6, 14, 12, 13, 5, 14, 13, 13, 7, 5] s
  let s := rmdLine 1 0x7a6d76e9 ws [8, 6, 4, 1, 3, 11, 15, 0, 5, 12, 2, 13, 9, 7, 10, 14] [15, 5, 8, 11, 14, 14, 6, 14, 6, 9, 12, 9, 12, 5, 15, 8] s
  rmdLine 0 0 ws [12, 15, 10, 4, 1, 5, 8, 7, 6, 2, 13, 14, 0, 3, 9, 11] [8, 5, 12, 9, 12, 5, 14, 6, 8, 13, 6, 5, 15, 13, 11, 11] s

def rmdBlock (ws : List Nat) (s : St5) : St5 :=
  let l := rmdLeft ws s
  let r := rmdRight ws s
  ⟨m32 (s.b + l.c + r.d), m32 (s.c + l.d + r.e), m32 (s.d + l.e + r.a), m32 (s.e + l.a + r.b), m32 (s.a + l.b + r.c)⟩

def rmdBlocks : Nat → Bytes → St5 → St5
  | 0, _, s => s
  | n + 1, b, s => rmdBlocks n (b.drop 64) (rmdBlock (wordsLE (b.take 64)) s)

def ripemd160 (b : Bytes) : Bytes :=
  let m := pad b ++ le4 (b.length * 8 % 4294967296) ++ le4 (b.length * 8 / 4294967296)
  let s := rmdBlocks (m.length / 64) m ⟨0x67452301, 0xefcdab89, 0x98badcfe, 0x10325476, 0xc3d2e1f0⟩
  le4 s.a ++ le4 s.b ++ le4 s.c ++ le4 s.d ++ le4 s.e

theorem ripemd160_length (b : Bytes) : (ripemd160 b).length = 20 := rfl

/-- The hash functions the library is compiled with. -/
def realH : HashFns := { sha256 := sha256, ripemd160 := ripemd160, sha256_length := sha256_length, ripemd160_length := ripemd160_length }

end Verif.Tests
