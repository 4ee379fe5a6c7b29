import Verif.Model.SigHash
/-!
# Goroutines that sign inputs of one transaction

The calls `signer.Sign`, `signer.SignAuto` (transaction/signature/InternalSigner.go:24-71) and `tx.Sign`, `tx.SignAuto` (transaction/Transaction.go:265-286) made by several
goroutines on one shared `*Transaction`, each with a pointer to one of several shared `InternalSigner` objects. The code uses no lock and no atomic operation, so each call is cut into
its accesses to memory that some call writes: the signers' `SigHashFlag` fields, the inputs' `UnlockingScript` fields and the transaction struct itself. A schedule, any list of goroutine
numbers, says who makes the next step.

Simplifications: the interleaving is sequentially consistent (Go promises this only for executions without data race; Props/Concurrent says exactly which those are). Reads of memory no
call writes (previous-output fields, sequence numbers, outputs, the arrays of pointers, keys) are done in one step with the neighbouring access. The entries of `tx.Inputs` are
distinct non-nil objects, as after parsing, `From` or `AddInput` of fresh inputs.
-/
namespace Verif.Conc
open Verif

/-- What the goroutines share: the transaction and the signers. -/
structure Shared where
  tx : Transaction
  signers : List InternalSigner

/-- Where a goroutine is inside `InternalSigner.Sign`, InternalSigner.go:24-47. -/
inductive InSign where
  /-- :25 `if is.SigHashFlag == 0` -/
  | test
  /-- :26 `is.SigHashFlag = sighash.AllForkID` -/
  | store
  /-- :29 `unsignedTx.GetInputSignatureHash(index, is.SigHashFlag)` -/
  | hash
  /-- :34 `is.PrivateKey.Sign(utils.ReverseBytes(sh))` -/
  | sign (sh : Bytes)
  /-- :39 `script.NewP2PKHUnlockingScript(..., is.SigHashFlag)`, which reads the flag again -/
  | script (sig : Bytes)
  /-- :41 `unsignedTx.ApplyUnlockingScript(index, s)` -/
  | apply (s : Script)
  /-- :31, :36, :43, :46 the return, with the error if there is one -/
  | ret (e : Option String)
deriving DecidableEq, Repr

/-- Where a goroutine is. `m` says that the call was made through the transaction's method, which ends with `*bt = *signedTx`. -/
inductive PC where
  /-- in `Sign(idx, tx)` -/
  | one (m : Bool) (idx : UInt32) (p : InSign)
  /-- InternalSigner.go:53 -/
  | autoTest (m : Bool)
  /-- InternalSigner.go:54 -/
  | autoStore (m : Bool)
  /-- InternalSigner.go:57, the evaluation of `unsignedTx.Inputs` -/
  | range (m : Bool)
  /-- InternalSigner.go:57-65, the loop at position `i` of `n` -/
  | scan (m : Bool) (n i : Nat)
  /-- InternalSigner.go:66, in the call of `Sign(uint32(i), unsignedTx)` -/
  | inAuto (m : Bool) (n i : Nat) (p : InSign)
  /-- Transaction.go:270, :284 `*bt = *signedTx` -/
  | assign
  /-- the call has returned, with the error if there is one -/
  | done (e : Option String)
deriving DecidableEq, Repr

/-- The memory that some call writes. -/
inductive Loc where
  /-- the transaction struct -/
  | header
  /-- the `SigHashFlag` of a signer -/
  | flag (sg : Nat)
  /-- the `UnlockingScript` of an input -/
  | unlocking (k : Nat)
deriving DecidableEq, Repr

/-- One access to shared memory: by which goroutine, whether it is a write, and where. -/
structure Access where
  by_ : Nat
  write : Bool
  loc : Loc
deriving DecidableEq, Repr

/-- A running program: the shared objects, the goroutines (signer and position), whether a goroutine has panicked (which ends the program), and the accesses made so far. -/
structure Sys where
  shared : Shared
  threads : List (Nat × PC)
  crashed : Bool
  log : List Access

/-- One step inside `InternalSigner.Sign` (InternalSigner.go:24-47): the new shared state, the new position and the accesses (write or not, where). -/
def signStep (H : HashFns) (σ : Shared) (sg : Nat) (idx : UInt32) (p : InSign) : Res (Shared × InSign × List (Bool × Loc)) := do
  let is ← index σ.signers sg
  match p with
  | .test => pure (σ, if is.SigHashFlag = 0 then .store else .hash, [(false, .flag sg)])
  | .store => pure ({ σ with signers := σ.signers.set sg { is with SigHashFlag := sighash.AllForkID } }, .hash, [(true, .flag sg)])
  | .hash =>
    match σ.tx.GetInputSignatureHash H idx is.SigHashFlag with
    | .ok sh => pure (σ, .sign sh, [(false, .flag sg), (false, .header)])
    | .err e => pure (σ, .ret (some e), [(false, .flag sg), (false, .header)])
    | .panic => .panic
  | .sign sh =>
    match is.sign (ReverseBytes sh) with
    | .ok sig => pure (σ, .script sig, [])
    | .err e => pure (σ, .ret (some e), [])
    | .panic => .panic
  | .script sig => pure (σ, .apply (NewP2PKHUnlockingScript is.pubKey sig is.SigHashFlag).1, [(false, .flag sg)])
  | .apply s =>
    match σ.tx.ApplyUnlockingScript idx s with
    | .ok tx => pure ({ σ with tx := tx }, .ret none, [(false, .header), (true, .unlocking idx.toNat)])
    | .err e => pure (σ, .ret (some e), [(false, .header)])
    | .panic => .panic
  | .ret e => pure (σ, .ret e, [])

/-- One step of a goroutine: InternalSigner.go:24-71 and Transaction.go:265-286. -/
def pcStep (H : HashFns) (σ : Shared) (sg : Nat) (pc : PC) : Res (Shared × PC × List (Bool × Loc)) :=
  match pc with
  | .one m _ (.ret none) => .ok (σ, if m then .assign else .done none, [])
  | .one _ _ (.ret (some e)) => .ok (σ, .done (some e), [])
  | .one m idx p => do
    let r ← signStep H σ sg idx p
    pure (r.1, .one m idx r.2.1, r.2.2)
  | .autoTest m => do
    let is ← index σ.signers sg
    pure (σ, if is.SigHashFlag = 0 then .autoStore m else .range m, [(false, .flag sg)])
  | .autoStore m => do
    let is ← index σ.signers sg
    pure ({ σ with signers := σ.signers.set sg { is with SigHashFlag := sighash.AllForkID } }, .range m, [(true, .flag sg)])
  | .range m => .ok (σ, .scan m σ.tx.Inputs.length 0, [(false, .header)])
  | .scan m n i =>
    if i < n then do
      let is ← index σ.signers sg
      let inp ← index σ.tx.Inputs i
      match GetPublicKeyHash inp.PreviousTxScript with
      | .panic => .panic
      | r =>
        let pubKeyHash := match r with | .ok h => h | _ => []
        if hexEncode pubKeyHash = hexEncode (Hash160 H is.pubKey) then pure (σ, .inAuto m n i .test, [])
        else pure (σ, .scan m n (i + 1), [])
    else .ok (σ, if m then .assign else .done none, [])
  | .inAuto m n i (.ret _) => .ok (σ, .scan m n (i + 1), [])
  | .inAuto m n i p => do
    let r ← signStep H σ sg (UInt32.ofNat i) p
    pure (r.1, .inAuto m n i r.2.1, r.2.2)
  | .assign => .ok (σ, .done none, [(false, .header), (true, .header)])
  | .done e => .ok (σ, .done e, [])

/-- Goroutine `t` makes a step. A panic ends the program: nobody steps after it. -/
def step (H : HashFns) (s : Sys) (t : Nat) : Sys :=
  if s.crashed then s
  else match s.threads[t]? with
    | none => s
    | some (sg, pc) =>
      match pcStep H s.shared sg pc with
      | .ok (σ, pc', acc) => { shared := σ, threads := s.threads.set t (sg, pc'), crashed := false, log := s.log ++ acc.map fun a => ⟨t, a.1, a.2⟩ }
      | _ => { s with crashed := true }

/-- The program after a schedule. -/
def run (H : HashFns) (s : Sys) (schedule : List Nat) : Sys := schedule.foldl (step H) s

/-- The four calls. -/
inductive Job where
  /-- `signer.Sign(idx, tx)`, or `tx.Sign(idx, signer)` for `m = true` -/
  | one (m : Bool) (idx : UInt32)
  /-- `signer.SignAuto(tx)`, or `tx.SignAuto(signer)` for `m = true` -/
  | auto (m : Bool)
deriving DecidableEq, Repr

/-- A goroutine at the beginning of its call. -/
def Job.start : Job → PC
  | .one m idx => .one m idx .test
  | .auto m => .autoTest m

/-- The program at the moment the goroutines (signer and call) are started. -/
def start (tx : Transaction) (signers : List InternalSigner) (jobs : List (Nat × Job)) : Sys :=
  { shared := ⟨tx, signers⟩, threads := jobs.map fun j => (j.1, j.2.start), crashed := false, log := [] }

/-- Every goroutine has returned. -/
def Sys.finished (s : Sys) : Prop := s.crashed = false ∧ ∀ x ∈ s.threads, ∃ e, x.2 = .done e

end Verif.Conc
