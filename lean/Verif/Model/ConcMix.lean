import Verif.Model.ConcBuild
import Verif.Model.SigHash
/-!
# Goroutines that look at a transaction, or sign it, while others add to it

The methods of a transaction evaluate `bt.Inputs` and `bt.Outputs` anew at each place where they are written: `toBytesHelper` (transaction/Transaction.go:232-259) evaluates each of them twice, for the count and for
the loop; `GetInputSignatureHash` (transaction/SignatureHash.go:17-99) and the functions it calls evaluate `bt.Inputs` up to three times and `bt.Outputs` up to twice; `IsCoinbase` (Transaction.go:173-187) up to four times.
`Transaction.Sign` and `SignAuto` end with `*bt = *signedTx` (:270, :284), which reads the whole struct and writes it back.

A call is written as the program of its evaluations (`Prog`); what it does with what it finds is the continuation. Each evaluation reads the slice header; `x[i]` then reads one element, a loop reads the elements one
after the other. `*bt = *signedTx` is two steps: all headers are read, all headers are written. The goroutines that add are those of Model/ConcBuild. A panic ends the program.

Simplifications: as in Model/ConcBuild (sequentially consistent, a header in one step). The elements are inputs and outputs that do not change while they are read (Model/ConcRead has goroutines that sign inputs while
others serialise, Model/ConcScriptRead scripts that are appended to while an output is serialised).
-/
namespace Verif.Mix
open Verif
open Verif.Build (Pool Loc Access)
open Verif.Obj (RefSlice)

/-- A call, as the list of its looks at the shared slice variables. -/
inductive Prog (α β : Type) where
  /-- returns -/
  | ret (r : β)
  /-- panics -/
  | panic
  /-- evaluates `len(x)` of variable `f` -/
  | count (f : Nat) (k : Nat → Prog α β)
  /-- evaluates `x[i]` -/
  | elem (f i : Nat) (k : α → Prog α β)
  /-- `for _, e := range x` -/
  | range (f : Nat) (k : List α → Prog α β)
  /-- `*bt = *signedTx` where both are the object with the variables `fs` -/
  | assign (fs : List Nat) (k : Prog α β)

/-- Where a goroutine is in its call. -/
inductive RPC (α β : Type) where
  /-- about to begin the next look -/
  | at_ (p : Prog α β)
  /-- `x[i]`: has the header -/
  | pick (f i : Nat) (h : RefSlice) (k : α → Prog α β)
  /-- in a loop: has the header and the elements `acc` -/
  | walk (f : Nat) (h : RefSlice) (acc : List α) (k : List α → Prog α β)
  /-- `*bt = *signedTx`: has read the headers -/
  | hold (hs : List (Nat × RefSlice)) (k : Prog α β)

/-- The variables after the headers `hs` have been stored. -/
def restore {α : Type} (pool : Nat → Pool α) (hs : List (Nat × RefSlice)) (f : Nat) : Pool α :=
  match hs.lookup f with
  | none => pool f
  | some h => { pool f with hdr := h }

/-- One step of a call; `none` is a panic. Transaction.go:173-187, :199-259, :265-297 and SignatureHash.go:17-139. -/
def rstep {α β : Type} [Inhabited α] (pool : Nat → Pool α) : RPC α β → Option ((Nat → Pool α) × RPC α β × List (Bool × Loc))
  | .at_ (.ret r) => some (pool, .at_ (.ret r), [])
  | .at_ .panic => none
  | .at_ (.count f k) => some (pool, .at_ (k (pool f).hdr.len), [(false, .header f)])
  | .at_ (.elem f i k) => if i < (pool f).hdr.len then some (pool, .pick f i (pool f).hdr k, [(false, .header f)]) else none
  | .at_ (.range f k) => some (pool, .walk f (pool f).hdr [] k, [(false, .header f)])
  | .at_ (.assign fs k) => some (pool, .hold (fs.map fun f => (f, (pool f).hdr)) k, fs.map fun f => (false, .header f))
  | .pick f i h k => some (pool, .at_ (k (((pool f).arrays.getD h.arr []).getD i default)), [(false, .elem f h.arr i)])
  | .walk f h acc k =>
    if acc.length < h.len then some (pool, .walk f h (acc ++ [((pool f).arrays.getD h.arr []).getD acc.length default]) k, [(false, .elem f h.arr acc.length)])
    else some (pool, .at_ (k acc), [])
  | .hold hs k => some (restore pool hs, .at_ k, hs.map fun p => (true, .header p.1))

/-- A running program: the goroutines that add, with the variables and the log; the other calls; and whether one of them has panicked. -/
structure Sys (α β : Type) where
  app : Build.Sys α
  calls : List (RPC α β)
  crashed : Bool

/-- Goroutine `t` makes a step: the first numbers are the goroutines that add, the next the other calls. Nobody steps after a panic. -/
def step {α β : Type} [Inhabited α] (g : Nat → Nat) (s : Sys α β) (t : Nat) : Sys α β :=
  if s.crashed then s
  else if t < s.app.threads.length then { s with app := Build.step g s.app t }
  else match s.calls[t - s.app.threads.length]? with
    | none => s
    | some pc =>
      match rstep s.app.pool pc with
      | none => { s with crashed := true }
      | some r => { s with
          app := { s.app with pool := r.1, log := s.app.log ++ r.2.2.map fun a => ⟨t, a.1, a.2⟩ }
          calls := s.calls.set (t - s.app.threads.length) r.2.1 }

/-- The program after a schedule. -/
def run {α β : Type} [Inhabited α] (g : Nat → Nat) (s : Sys α β) (schedule : List Nat) : Sys α β := schedule.foldl (step g) s

/-- The program when the goroutines are started: those that add (variable, element), and the calls. -/
def start {α β : Type} (pool : Nat → Pool α) (jobs : List (Nat × α)) (calls : List (Prog α β)) : Sys α β := ⟨Build.start pool jobs, calls.map .at_, false⟩

/-- What variable `f` holds. -/
def Sys.val {α β : Type} (s : Sys α β) (f : Nat) : List α := (s.app.pool f).val

/-! ## The methods of a transaction as programs: variable 0 is `bt.Inputs`, variable 1 is `bt.Outputs` -/

/-- An element of `bt.Inputs` or `bt.Outputs`. -/
abbrev Elem := Input ⊕ Output

instance : Inhabited Elem := ⟨.inr ⟨0, []⟩⟩

/-- What the calls return. -/
inductive Got where
  | bytes (b : Bytes)
  | error (e : String)
  | bool (b : Bool)
  | number (n : Nat)
  /-- the digests that `SignAuto` signed, with the positions of the inputs -/
  | signed (l : List (Nat × Bytes))
deriving DecidableEq, Repr

/-- The inputs among the elements (all of them, for what variable 0 holds). -/
def ins (l : List Elem) : List Input := l.filterMap Sum.getLeft?
/-- The outputs among the elements. -/
def outs (l : List Elem) : List Output := l.filterMap Sum.getRight?

/-- What the variables of a transaction hold. -/
def txVal (tx : Transaction) : Nat → List Elem
  | 0 => tx.Inputs.map .inl
  | 1 => tx.Outputs.map .inr
  | _ => []

/-- transaction/Transaction.go:144-146 `InputCount` -/
def inputCount : Prog Elem Got := .count 0 fun n => .ret (.number n)

/-- transaction/Transaction.go:149-151 `OutputCount` -/
def outputCount : Prog Elem Got := .count 1 fun n => .ret (.number n)

/-- transaction/Transaction.go:200-207 `GetTotalOutputSatoshis` -/
def totalSatoshis : Prog Elem Got := .range 1 fun l => .ret (.number ((outs l).foldl (fun total o => total + o.Satoshis) (0 : UInt64)).toNat)

/-- What `toBytesHelper` returns when it finds `n` inputs, goes through `is`, finds `m` outputs and goes through `os`: transaction/Transaction.go:232-259. -/
def helperRead (version locktime : UInt32) (idx : Int) (spk : Option Bytes) (n : Nat) (is : List Input) (m : Nat) (os : List Output) : Bytes :=
  putUint32 version ++ VarInt (UInt64.ofNat n) ++ Transaction.inputsHelper idx spk 0 is ++ VarInt (UInt64.ofNat m) ++ os.flatMap Output.ToBytes ++ putUint32 locktime

/-- transaction/Transaction.go:232-259 `toBytesHelper` -/
def toBytesHelper (version locktime : UInt32) (idx : Int) (spk : Option Bytes) : Prog Elem Got :=
  .count 0 fun n => .range 0 fun is => .count 1 fun m => .range 1 fun os => .ret (.bytes (helperRead version locktime idx spk n (ins is) m (outs os)))

/-- transaction/Transaction.go:222-224 `ToBytes` (and so `ToString` :216-218 and `GetTxID` :211-213) -/
def toBytes (version locktime : UInt32) : Prog Elem Got := toBytesHelper version locktime 0 none

/-- transaction/Transaction.go:173-187 `IsCoinbase`; an element of another kind does not occur. -/
def isCoinbase : Prog Elem Got :=
  .count 0 fun n =>
    if n ≠ 1 then .ret (.bool false)
    else .elem 0 0 fun e1 => match e1 with
      | .inr _ => .panic
      | .inl i1 =>
        if i1.PreviousTxID ≠ Transaction.zeroTxID then .ret (.bool false)
        else .elem 0 0 fun e2 => match e2 with
          | .inr _ => .panic
          | .inl i2 =>
            if i2.PreviousTxOutIndex = 0xFFFFFFFF then .ret (.bool true)
            else .elem 0 0 fun e3 => match e3 with
              | .inr _ => .panic
              | .inl i3 => .ret (.bool (i3.SequenceNumber == 0xFFFFFFFF))

/-- transaction/SignatureHash.go:127-139 `getOutputsHash`, going on with `k` -/
def outputsHash (H : HashFns) (n : Int) (k : Bytes → Prog Elem Got) : Prog Elem Got :=
  if n = -1 then .range 1 fun os => k (Sha256d H ((outs os).flatMap Output.GetBytesForSigHash))
  else if n < 0 then .panic
  else .elem 1 n.toNat fun e => match e with
    | .inl _ => .panic
    | .inr o => k (Sha256d H o.GetBytesForSigHash)

/-- The bytes that are hashed in the end, transaction/SignatureHash.go:51-96. -/
def digestRead (H : HashFns) (version locktime : UInt32) (flag : UInt8) (i : Input) (prevScript : Bytes) (hashPrevouts hashSequence hashOutputs : Bytes) : Bytes :=
  ReverseBytes (Sha256d H (putUint32 version ++ hashPrevouts ++ hashSequence ++
      ReverseBytes (hexDecodeIgnore i.PreviousTxID) ++ putUint32 i.PreviousTxOutIndex ++
      VarInt (UInt64.ofNat prevScript.length) ++ prevScript ++
      putUint64 i.PreviousTxSatoshis ++ putUint32 i.SequenceNumber ++ hashOutputs ++ putUint32 locktime ++
      putUint32 flag.toUInt32))

/-- transaction/SignatureHash.go:17-99 `GetInputSignatureHash`, going on with `k` -/
def sigHash (H : HashFns) (version locktime : UInt32) (inputNumber : UInt32) (flag : UInt8) (k : Got → Prog Elem Got) : Prog Elem Got :=
  .elem 0 inputNumber.toNat fun e => match e with
    | .inr _ => .panic
    | .inl i =>
      if i.PreviousTxID = [] then k (.error "'PreviousTxID' not supplied")
      else match i.PreviousTxScript with
      | none => k (.error "'PreviousTxScript' not supplied")
      | some prevScript =>
        let zero := List.replicate 32 (0 : UInt8)
        let prevouts (k : Bytes → Prog Elem Got) : Prog Elem Got :=
          if flag &&& sighash.AnyOneCanPay = 0 then
            .range 0 fun is => k (Sha256d H ((ins is).flatMap fun i => ReverseBytes (hexDecodeIgnore i.PreviousTxID) ++ putUint32 i.PreviousTxOutIndex))
          else k zero
        let sequence (k : Bytes → Prog Elem Got) : Prog Elem Got :=
          if flag &&& sighash.AnyOneCanPay = 0 ∧ flag &&& 31 ≠ sighash.Single ∧ flag &&& 31 ≠ sighash.None then
            .range 0 fun is => k (Sha256d H ((ins is).flatMap fun i => putUint32 i.SequenceNumber))
          else k zero
        let outputs (k : Bytes → Prog Elem Got) : Prog Elem Got :=
          if flag &&& 31 ≠ sighash.Single ∧ flag &&& 31 ≠ sighash.None then outputsHash H (-1) k
          else if flag &&& 31 = sighash.Single then
            .count 1 fun m => if inputNumber < UInt32.ofNat m then outputsHash H (Transaction.int32OfUint32 inputNumber) k else k zero
          else k zero
        prevouts fun hp => sequence fun hs => outputs fun ho => k (.bytes (digestRead H version locktime flag i prevScript hp hs ho))

/-- `Sign(index, tx)` of a signer with its flag set that signs every digest (InternalSigner.go:24-47; `bt.Inputs[index]` is evaluated twice in `ApplyUnlockingScript`, Transaction.go:290-297), and with `method` the
transaction's own `Sign`, which assigns afterwards (Transaction.go:265-272). The script that the call leaves in the input is not part of this model; the result is the digest it signed. -/
def sign (H : HashFns) (version locktime : UInt32) (method : Bool) (inputNumber : UInt32) (flag : UInt8) : Prog Elem Got :=
  sigHash H version locktime inputNumber flag fun r => match r with
    | .bytes d => .elem 0 inputNumber.toNat fun _ => .elem 0 inputNumber.toNat fun _ => if method then .assign [0, 1] (.ret (.bytes d)) else .ret (.bytes d)
    | r => .ret r

/-- The loop of `SignAuto` (InternalSigner.go:57-68) over the remaining inputs, the first at position `i`; `mine` is the hash of the signer's public key, `acc` what has been signed. -/
def signAutoLoop (H : HashFns) (version locktime : UInt32) (mine : Bytes) (flag : UInt8) (k : List (Nat × Bytes) → Prog Elem Got) : Nat → List Input → List (Nat × Bytes) → Prog Elem Got
  | _, [], acc => k acc
  | i, inp :: rest, acc =>
    match GetPublicKeyHash inp.PreviousTxScript with
    | .panic => .panic
    | r =>
      let pubKeyHash := match r with | .ok h => h | _ => []
      if hexEncode pubKeyHash = hexEncode mine then
        sigHash H version locktime (UInt32.ofNat i) flag fun r => match r with
          | .bytes d => .elem 0 (UInt32.ofNat i).toNat fun _ => .elem 0 (UInt32.ofNat i).toNat fun _ =>
              signAutoLoop H version locktime mine flag k (i + 1) rest (acc ++ [((UInt32.ofNat i).toNat, d)])
          | _ => signAutoLoop H version locktime mine flag k (i + 1) rest acc
      else signAutoLoop H version locktime mine flag k (i + 1) rest acc

/-- `SignAuto(tx)` of such a signer (InternalSigner.go:52-71), and with `method` the transaction's own `SignAuto`, which assigns afterwards (Transaction.go:279-286). Simplification: the loop's elements are read before the
first of them is signed. -/
def signAuto (H : HashFns) (version locktime : UInt32) (method : Bool) (mine : Bytes) (flag : UInt8) : Prog Elem Got :=
  .range 0 fun is => signAutoLoop H version locktime mine flag (fun acc => if method then .assign [0, 1] (.ret (.signed acc)) else .ret (.signed acc)) 0 (ins is) []

end Verif.Mix
