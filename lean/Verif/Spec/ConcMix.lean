import Verif.Model.ConcMix
import Verif.Spec.ConcBuild
/-!
# Specification: what a call on an object may find while others add to the object
-/
namespace Verif.Spec
open Verif Verif.Mix
open Verif.Build (Pool)

variable {α β : Type}

/-- What a call does when nobody else is there and the variables hold `v`. -/
def alone (v : Nat → List α) : Prog α β → Res β
  | .ret r => .ok r
  | .panic => .panic
  | .count f k => alone v (k (v f).length)
  | .elem f i k => match (v f)[i]? with
    | none => .panic
    | some x => alone v (k x)
  | .range f k => alone v (k (v f))
  | .assign _ k => alone v k

/-- The call ends with `r` if each of its looks, at moment `j` and at variable `f`, finds a list `l` with `P j f l`; the moments come one after the other, the first not before `n`. -/
inductive Finds (P : Nat → Nat → List α → Prop) : Nat → Prog α β → Res β → Prop
  | ret {n : Nat} {r : β} : Finds P n (.ret r) (.ok r)
  | panic {n : Nat} : Finds P n .panic .panic
  | count {n j f : Nat} {l : List α} {k : Nat → Prog α β} {r : Res β} : n ≤ j → P j f l → Finds P (j + 1) (k l.length) r → Finds P n (.count f k) r
  | elem {n j f i : Nat} {l : List α} {x : α} {k : α → Prog α β} {r : Res β} : n ≤ j → P j f l → l[i]? = some x → Finds P (j + 1) (k x) r → Finds P n (.elem f i k) r
  | beyond {n j f i : Nat} {l : List α} {k : α → Prog α β} : n ≤ j → P j f l → l.length ≤ i → Finds P n (.elem f i k) .panic
  | range {n j f : Nat} {l : List α} {k : List α → Prog α β} {r : Res β} : n ≤ j → P j f l → Finds P (j + 1) (k l) r → Finds P n (.range f k) r
  | assign {n : Nat} {fs : List Nat} {k : Prog α β} {r : Res β} : Finds P n k r → Finds P n (.assign fs k) r

/-- Goroutine `t` has begun to replace variable `f` (by adding to it, or by assigning the whole object) and has not finished. -/
def Replacing (s : Mix.Sys α β) (f t : Nat) : Prop :=
  (∃ th, s.app.threads[t]? = some th ∧ th.field = f ∧ th.pc ≠ .load ∧ th.pc ≠ .done) ∨
  (∃ i hs k, t = s.app.threads.length + i ∧ s.calls[i]? = some (.hold hs k) ∧ f ∈ hs.map Prod.fst)

/-- In the course of the schedule no two goroutines replace the same variable at the same time: one goroutine does it all, or a lock is held around each addition and each call of the transaction's `Sign` or `SignAuto`. -/
def NoOverlap [Inhabited α] (g : Nat → Nat) (s : Mix.Sys α β) (sch : List Nat) : Prop :=
  ∀ p q, sch = p ++ q → ∀ f t u, Replacing (Mix.run g s p) f t → Replacing (Mix.run g s p) f u → t = u

/-- The goroutine that adds has returned. -/
def Added (s : Mix.Sys α β) (t : Nat) : Prop := ∃ th, s.app.threads[t]? = some th ∧ th.pc = .done

/-- Call number `i` has returned `r`. -/
def HasReturned (s : Mix.Sys α β) (i : Nat) (r : β) : Prop := s.calls[i]? = some (.at_ (.ret r))

/-- How a call that nobody interrupts takes the program from `s` to `s'`: with result `r` and the lists as they were, or into a panic. -/
def Ends (s s' : Mix.Sys α β) (i : Nat) : Res β → Prop
  | .ok r => s'.crashed = false ∧ s'.app.pool = s.app.pool ∧ s'.app.threads = s.app.threads ∧ HasReturned s' i r
  | .panic => s'.crashed = true
  | .err _ => False

/-- Every path through the call has at most `d` looks, if no list is longer than `M`. -/
inductive Looks (M : Nat) : Nat → Prog α β → Prop
  | ret {d : Nat} (r : β) : Looks M d (.ret r)
  | panic {d : Nat} : Looks M d .panic
  | count {d f : Nat} {k : Nat → Prog α β} : (∀ n, Looks M d (k n)) → Looks M (d + 1) (.count f k)
  | elem {d f i : Nat} {k : α → Prog α β} : (∀ x, Looks M d (k x)) → Looks M (d + 1) (.elem f i k)
  | range {d f : Nat} {k : List α → Prog α β} : (∀ l, l.length ≤ M → Looks M d (k l)) → Looks M (d + 1) (.range f k)
  | assign {d : Nat} {fs : List Nat} {k : Prog α β} : Looks M d k → Looks M (d + 1) (.assign fs k)

/-- Some path through the call looks at variable `f` (or assigns it). -/
inductive MayLook (f : Nat) : Prog α β → Prop
  | count {k : Nat → Prog α β} : MayLook f (.count f k)
  | elem {i : Nat} {k : α → Prog α β} : MayLook f (.elem f i k)
  | range {k : List α → Prog α β} : MayLook f (.range f k)
  | assign {fs : List Nat} {k : Prog α β} : f ∈ fs → MayLook f (.assign fs k)
  | count' {f' : Nat} {k : Nat → Prog α β} (n : Nat) : MayLook f (k n) → MayLook f (.count f' k)
  | elem' {f' i : Nat} {k : α → Prog α β} (x : α) : MayLook f (k x) → MayLook f (.elem f' i k)
  | range' {f' : Nat} {k : List α → Prog α β} (l : List α) : MayLook f (k l) → MayLook f (.range f' k)
  | assign' {fs : List Nat} {k : Prog α β} : MayLook f k → MayLook f (.assign fs k)

/-- Some path through the call assigns variable `f`. -/
inductive MayAssign (f : Nat) : Prog α β → Prop
  | assign {fs : List Nat} {k : Prog α β} : f ∈ fs → MayAssign f (.assign fs k)
  | count' {f' : Nat} {k : Nat → Prog α β} (n : Nat) : MayAssign f (k n) → MayAssign f (.count f' k)
  | elem' {f' i : Nat} {k : α → Prog α β} (x : α) : MayAssign f (k x) → MayAssign f (.elem f' i k)
  | range' {f' : Nat} {k : List α → Prog α β} (l : List α) : MayAssign f (k l) → MayAssign f (.range f' k)
  | assign' {fs : List Nat} {k : Prog α β} : MayAssign f k → MayAssign f (.assign fs k)

/-- Every path through the call that returns looks at variable `f`. -/
inductive MustLook (f : Nat) : Prog α β → Prop
  | panic : MustLook f .panic
  | count {k : Nat → Prog α β} : MustLook f (.count f k)
  | elem {i : Nat} {k : α → Prog α β} : MustLook f (.elem f i k)
  | range {k : List α → Prog α β} : MustLook f (.range f k)
  | assign {fs : List Nat} {k : Prog α β} : f ∈ fs → MustLook f (.assign fs k)
  | count' {f' : Nat} {k : Nat → Prog α β} : (∀ n, MustLook f (k n)) → MustLook f (.count f' k)
  | elem' {f' i : Nat} {k : α → Prog α β} : (∀ x, MustLook f (k x)) → MustLook f (.elem f' i k)
  | range' {f' : Nat} {k : List α → Prog α β} : (∀ l, MustLook f (k l)) → MustLook f (.range f' k)
  | assign' {fs : List Nat} {k : Prog α β} : MustLook f k → MustLook f (.assign fs k)

/-- Goroutine `t` replaces variable `f`: it adds to it, or it is a call that may assign it. -/
def Replaces (jobs : List (Nat × α)) (calls : List (Prog α β)) (f t : Nat) : Prop :=
  (∃ x, jobs[t]? = some (f, x)) ∨ ∃ i p, t = jobs.length + i ∧ calls[i]? = some p ∧ MayAssign f p

/-- Goroutine `t` uses variable `f`: it adds to it, or it is a call that may look at it (or assign it). -/
def Uses (jobs : List (Nat × α)) (calls : List (Prog α β)) (f t : Nat) : Prop :=
  (∃ x, jobs[t]? = some (f, x)) ∨ ∃ i p, t = jobs.length + i ∧ calls[i]? = some p ∧ MayLook f p

/-! ## The transaction -/

/-- The goroutines that call `AddInput` (or `From`) and `AddOutput` (or `PayTo`, ...) with these new inputs and outputs, as additions to the two lists. -/
def adds (es : List Elem) : List (Nat × Elem) := es.map fun e => match e with
  | .inl i => (0, .inl i)
  | .inr o => (1, .inr o)

/-- The lists are those of the transaction `tx`, as a Go program can hold them (any capacity). -/
def HoldsTx (pool : Nat → Pool Elem) (tx : Transaction) : Prop := ∀ f, SliceOK (pool f) ∧ (pool f).val = txVal tx f

/-- The transaction as it is in state `s` (`tx` is the transaction at the start: nobody changes the version and the lock time). -/
def now (tx : Transaction) (s : Mix.Sys Elem Got) : Transaction := { tx with Inputs := ins (s.val 0), Outputs := outs (s.val 1) }

/-- A method call. -/
inductive OnTx where
  | inputCount | outputCount | total | toBytes | isCoinbase
  /-- `GetInputSignatureHash(idx, flag)` -/
  | digest (idx : UInt32) (flag : UInt8)
  /-- `Sign` of input `idx` by a signer with `flag`; `method`: through the transaction's own `Sign` -/
  | sign (method : Bool) (idx : UInt32) (flag : UInt8)
  /-- `SignAuto` by a signer with `flag` whose public key has the hash `mine`; `method`: through the transaction's own `SignAuto` -/
  | signAuto (method : Bool) (mine : Bytes) (flag : UInt8)

/-- The program of a call on transaction `tx`. -/
def OnTx.prog (H : HashFns) (tx : Transaction) : OnTx → Prog Elem Got
  | .inputCount => Mix.inputCount
  | .outputCount => Mix.outputCount
  | .total => Mix.totalSatoshis
  | .toBytes => Mix.toBytes tx.Version tx.Locktime
  | .isCoinbase => Mix.isCoinbase
  | .digest idx flag => Mix.sigHash H tx.Version tx.Locktime idx flag .ret
  | .sign method idx flag => Mix.sign H tx.Version tx.Locktime method idx flag
  | .signAuto method mine flag => Mix.signAuto H tx.Version tx.Locktime method mine flag

/-- The call asks for an input that was there at the start, below 2^31; for `SignAuto`: no script of an input, old or new, makes `GetPublicKeyHash` panic, and there are not more than 2^31 inputs in all. -/
def OnTx.Fine (tx : Transaction) (es : List Elem) : OnTx → Prop
  | .digest idx _ => idx.toNat < tx.Inputs.length ∧ idx.toNat < 2 ^ 31
  | .sign _ idx _ => idx.toNat < tx.Inputs.length ∧ idx.toNat < 2 ^ 31
  | .signAuto _ _ _ => (∀ i, (i ∈ tx.Inputs ∨ .inl i ∈ es) → GetPublicKeyHash i.PreviousTxScript ≠ .panic) ∧ tx.Inputs.length + es.length ≤ 2 ^ 31
  | _ => True

/-- Digests under this flag are of one moment, although inputs and outputs `es` are being added: the flag has ANYONECANPAY or NONE, or no inputs are added, or the flag has SINGLE and no outputs are added. -/
def OneMoment (flag : UInt8) (es : List Elem) : Prop :=
  flag &&& sighash.AnyOneCanPay ≠ 0 ∨ flag &&& 31 = sighash.None ∨ (∀ e ∈ es, ∃ o, e = .inr o) ∨ (flag &&& 31 = sighash.Single ∧ ∀ e ∈ es, ∃ i, e = .inl i)

/-- How often a call looks at the lists, at most, when none is longer than `M`. -/
def OnTx.looks (M : Nat) : OnTx → Nat
  | .toBytes => 4
  | .isCoinbase => 4
  | .digest _ _ => 5
  | .sign _ _ _ => 8
  | .signAuto _ _ _ => 7 * M + 2
  | _ => 1

/-- The call is the transaction's own `Sign` or `SignAuto`. -/
def OnTx.Assigns : OnTx → Prop
  | .sign method _ _ => method = true
  | .signAuto method _ _ => method = true
  | _ => False

end Verif.Spec
