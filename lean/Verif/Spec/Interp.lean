import Verif.Model.Crypto
import Verif.Spec.Signing
/-!
# Specification: evaluating the scripts of a spend

A small stack machine for the opcodes that the scripts built by the library use, written from the Bitcoin script semantics (after Genesis) and independent of
the library: what a node does with the unlocking script of an input and the locking script of the output it spends. Every other opcode makes the script fail.
-/
namespace Verif.Spec
open Verif

/-- Signatures against keys, as OP_CHECKMULTISIG compares them: each key is used at most once, in order. -/
def matchSigs (checkSig : Bytes → Bytes → Bool) : List Bytes → List Bytes → Bool
  | [], _ => true
  | _ :: _, [] => false
  | s :: ss, k :: ks => if checkSig k s then matchSigs checkSig ss ks else matchSigs checkSig (s :: ss) ks

/-- A count on the stack: nothing is 0, one byte below 0x80 is itself. (Longer encodings of counts are not accepted here; no script of the library makes one.) -/
def count : Bytes → Option Nat
  | [] => some 0
  | [x] => if x < 0x80 then some x.toNat else none
  | _ => none

/-- A count and that many items below it: the items (topmost first) and what is below them. -/
def popMany : List Bytes → Option (List Bytes × List Bytes)
  | [] => none
  | c :: st => (count c).bind fun n => if n ≤ st.length then some (st.take n, st.drop n) else none

/-- OP_CHECKMULTISIG: a count and so many keys, a count and so many signatures, one further item that is ignored. More signatures than keys fail. -/
def checkMultiSig (checkSig : Bytes → Bytes → Bool) (st : List Bytes) : Option (List Bytes) :=
  (popMany st).bind fun r => (popMany r.2).bind fun q =>
    if r.1.length < q.1.length then none
    else match q.2 with
      | [] => none
      | _ :: rest => some ((if matchSigs checkSig q.1 r.1 then [1] else []) :: rest)

/-- One token on a stack (top first); `none` is failure. `checkSig pub sig` decides a signature (with its flag byte). -/
def evalToken (H : HashFns) (checkSig : Bytes → Bytes → Bool) : Token → List Bytes → Option (List Bytes)
  | .op o, st =>
    if o = 0x00 then some ([] :: st)
    else if o = 0x76 then match st with                                 -- OP_DUP
      | x :: st => some (x :: x :: st)
      | _ => none
    else if o = 0xa9 then match st with                                 -- OP_HASH160
      | x :: st => some (H.ripemd160 (H.sha256 x) :: st)
      | _ => none
    else if o = 0x88 then match st with                                 -- OP_EQUALVERIFY
      | x :: y :: st => if x = y then some st else none
      | _ => none
    else if o = 0xac then match st with                                 -- OP_CHECKSIG
      | pub :: sig :: st => some ((if checkSig pub sig then [1] else []) :: st)
      | _ => none
    else if o = 0x87 then match st with                                 -- OP_EQUAL
      | x :: y :: st => some ((if x = y then [1] else []) :: st)
      | _ => none
    else if o = 0x4f then some ([0x81] :: st)                           -- OP_1NEGATE
    else if 0x51 ≤ o ∧ o ≤ 0x60 then some ([o - 0x50] :: st)            -- OP_1 .. OP_16
    else if o = 0xae then checkMultiSig checkSig st                     -- OP_CHECKMULTISIG
    else if o = 0x61 then some st                                       -- OP_NOP
    else none
  | .direct d, st | .pd1 d, st | .pd2 d, st | .pd4 d, st => some (d :: st)

/-- A sequence of tokens. OP_RETURN ends the script; the stack then decides. -/
def evalTokens (H : HashFns) (checkSig : Bytes → Bytes → Bool) : List Token → List Bytes → Option (List Bytes)
  | [], st => some st
  | t :: ts, st => if t = .op 0x6a then some st else (evalToken H checkSig t st).bind (evalTokens H checkSig ts)

/-- A token an unlocking script may contain: a push of data, or one of the opcodes up to 0x60 that push a constant. -/
def PushOnly : Token → Prop
  | .op o => o ≤ 0x60
  | _ => True

/-- A stack is true: something other than zero (in any of its encodings) is on top. -/
def Truthy : List Bytes → Prop
  | [] => False
  | x :: _ => ∃ k b, x[k]? = some b ∧ b ≠ 0 ∧ ¬ (b = 0x80 ∧ k + 1 = x.length)

/-- A flag byte that nodes accept: fork id set, base type ALL, NONE or SINGLE, no further bits except ANYONECANPAY. -/
def DefinedFlag (flag : UInt8) : Bool := flag &&& 0x40 ≠ 0 && (flag &&& 0x3f = 1 || flag &&& 0x3f = 2 || flag &&& 0x3f = 3)

/-- Signature checking for input `k` of `tx` spending an output with script `lock` and amount `sats`: the last byte of the stack item is the flag, which
must be defined, and the rest must verify for the key and the digest of the published preimage. -/
def checkSigOf (H : HashFns) (verify : Bytes → Bytes → Bytes → Bool) (tx : Transaction) (k : Nat) (inp : Input) (lock : Bytes) (sats : UInt64) (pub sigFlag : Bytes) : Bool :=
  match sigFlag.getLast? with
  | none => false
  | some flag => DefinedFlag flag && verify pub (H.sha256 (H.sha256 (preimage (fun b => H.sha256 (H.sha256 b)) tx k { inp with PreviousTxSatoshis := sats } lock flag))) sigFlag.dropLast

/-- Input `k` of `tx` may spend an output with locking script `lock` and amount `sats`: its unlocking script consists of pushes, and evaluating it and then
the locking script leaves true on top of the stack. -/
def Accepted (H : HashFns) (verify : Bytes → Bytes → Bytes → Bool) (tx : Transaction) (k : Nat) (lock : Bytes) (sats : UInt64) : Prop :=
  ∃ (inp : Input) (unl : Bytes) (us ts : List Token) (st fin : List Bytes), tx.Inputs[k]? = some inp ∧ inp.UnlockingScript = some unl ∧
    unl = bytesOf us ∧ (∀ u ∈ us, u.Valid ∧ PushOnly u) ∧ lock = bytesOf ts ∧ (∀ t ∈ ts, t.Valid) ∧
    evalTokens H (checkSigOf H verify tx k inp lock sats) us [] = some st ∧
    evalTokens H (checkSigOf H verify tx k inp lock sats) ts st = some fin ∧ Truthy fin

end Verif.Spec

namespace Verif.Spec
open Verif

/-- What a push leaves on the stack. -/
def pushValue : Token → Bytes
  | .op o => if o = 0x00 then [] else if o = 0x4f then [0x81] else [o - 0x50]
  | .direct d | .pd1 d | .pd2 d | .pd4 d => d

/-- Script `unl` consists of pushes, of `items` in this order (0x50 pushes nothing). -/
def Pushes (unl : Bytes) (items : List Bytes) : Prop :=
  ∃ us : List Token, unl = bytesOf us ∧ (∀ u ∈ us, u.Valid ∧ PushOnly u ∧ u ≠ .op 0x50) ∧ items = us.map pushValue

/-- Stack item `item` is a signature with a defined flag by the key `pub` over input `inp`, number `k`, of `tx` spending amount `sats` under script `code`. -/
def SignedBy (H : HashFns) (verify : Bytes → Bytes → Bytes → Bool) (tx : Transaction) (k : Nat) (inp : Input) (code : Bytes) (sats : UInt64) (pub item : Bytes) : Prop :=
  ∃ (sig : Bytes) (flag : UInt8), item = sig ++ [flag] ∧ DefinedFlag flag = true ∧
    verify pub (H.sha256 (H.sha256 (preimage (fun b => H.sha256 (H.sha256 b)) tx k { inp with PreviousTxSatoshis := sats } code flag))) sig = true

/-- Input `k` of `tx` may spend a pay-to-script-hash output with hash `h` and amount `sats`: the last item pushed is a script with that hash, which evaluates to
true on the other items. -/
def AcceptedP2SH (H : HashFns) (verify : Bytes → Bytes → Bytes → Bool) (tx : Transaction) (k : Nat) (h : Bytes) (sats : UInt64) : Prop :=
  ∃ (inp : Input) (unl redeem : Bytes) (items : List Bytes) (ts : List Token) (fin : List Bytes), tx.Inputs[k]? = some inp ∧ inp.UnlockingScript = some unl ∧
    Pushes unl (items ++ [redeem]) ∧ H.ripemd160 (H.sha256 redeem) = h ∧ redeem = bytesOf ts ∧ (∀ t ∈ ts, t.Valid) ∧
    evalTokens H (checkSigOf H verify tx k inp redeem sats) ts items.reverse = some fin ∧ Truthy fin

end Verif.Spec
