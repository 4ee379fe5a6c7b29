import Verif.Model.Encryption
/-!
# Goroutines that decrypt one ciphertext

`Decrypt` (crypto/Encryption.go:26-39) works in place: `cfb.XORKeyStream(text, text)` with `text` the caller's slice behind the initialisation vector. Here any number of goroutines call it with the same slice.

`XORKeyStream` of the CFB decrypter (Go, crypto/cipher/cfb.go) goes block by block: it makes the key stream `E(next)`, copies the block into `next`, then xors it with the key stream in place. `string(text)` copies the
bytes.

Simplifications: sequentially consistent interleaving of single accesses; bytes are moved one at a time, lowest first (the finest interleaving: the runtime moves words); the 16 bytes of the initialisation vector, which no call
writes, are read in one step. The cipher has blocks of 16 bytes (with any other, `Decrypt` panics before it touches the slice, Model/Encryption).
-/
namespace Verif.Dec
open Verif

/-- Where a goroutine is inside `Decrypt`. Positions are positions in the ciphertext. -/
inductive PC where
  /-- crypto/Encryption.go:27, about to check the length and make the decrypter -/
  | begin
  /-- :32, `XORKeyStream`, at the head of its loop, with `p` the position of the next block -/
  | block (p : Nat) (next : Bytes)
  /-- :32, `copy(x.next, src)`; `ks` is the key stream of the block -/
  | save (p : Nat) (ks got : Bytes)
  /-- :32, `xorBytes(dst, src, x.out)`, about to read byte `i` of the block -/
  | load (p : Nat) (ks next : Bytes) (i : Nat)
  /-- :32, about to write byte `i` of the block, which was `b` -/
  | store (p : Nat) (ks next : Bytes) (i : Nat) (b : UInt8)
  /-- :33, `string(text)` -/
  | read (got : Bytes)
  /-- :28, :35, :38, returned -/
  | done (r : Res Bytes)

/-- One step of `Decrypt`, crypto/Encryption.go:26-39, on the bytes of the slice: the bytes, the place and the accesses (write?, position). -/
def pcStep (E : Bytes → Bytes) (c : Bytes) : PC → Bytes × PC × List (Bool × Nat)
  | .begin =>
    if c.length < 16 then (c, .done (.err "ciphertext too short"), [])
    else (c, .block 16 (c.take 16), (List.range 16).map fun k => (false, k))
  | .block p next => if p < c.length then (c, .save p (E next) [], []) else (c, .read [], [])
  | .save p ks got =>
    if got.length < min 16 (c.length - p) then (c, .save p ks (got ++ [c.getD (p + got.length) 0]), [(false, p + got.length)])
    else (c, .load p ks got 0, [])
  | .load p ks next i =>
    if i < next.length then (c, .store p ks next i (c.getD (p + i) 0), [(false, p + i)])
    else (c, .block (p + next.length) next, [])
  | .store p ks next i b => (c.set (p + i) (b ^^^ ks.getD i 0), .load p ks next (i + 1), [(true, p + i)])
  | .read got =>
    if 16 + got.length < c.length then (c, .read (got ++ [c.getD (16 + got.length) 0]), [(false, 16 + got.length)])
    else (c, .done (base64Decode got), [])
  | .done r => (c, .done r, [])

/-- An access of goroutine `by_` to byte `at_` of the slice. -/
structure Access where
  by_ : Nat
  write : Bool
  at_ : Nat
deriving DecidableEq, Repr

/-- A running program: the bytes of the slice, the goroutines, the accesses made so far. -/
structure Sys where
  bytes : Bytes
  threads : List PC
  log : List Access

/-- Goroutine `t` makes a step. -/
def step (E : Bytes → Bytes) (s : Sys) (t : Nat) : Sys :=
  match s.threads[t]? with
  | none => s
  | some pc =>
    let r := pcStep E s.bytes pc
    ⟨r.1, s.threads.set t r.2.1, s.log ++ r.2.2.map fun a => ⟨t, a.1, a.2⟩⟩

/-- The program after a schedule. -/
def run (E : Bytes → Bytes) (s : Sys) (schedule : List Nat) : Sys := schedule.foldl (step E) s

/-- `n` goroutines call `Decrypt` with the slice `c`. -/
def start (c : Bytes) (n : Nat) : Sys := ⟨c, List.replicate n .begin, []⟩

end Verif.Dec
