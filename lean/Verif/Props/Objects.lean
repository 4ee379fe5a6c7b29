import Verif.Lemmas.Objects5
import Verif.Props.Signing
import Verif.Props.Redeem
/-!
# C76-C79: transactions as pointers
-/
namespace Verif.Obj
open Verif Verif.Props

/-! ## A concrete history -/

/-- Two transactions built from scratch and one parsed, one signer used on two of them. -/
def exCalls : List Call :=
  [.new, .new, .addInput 0 { PreviousTxID := hexEncode (List.replicate 32 7), PreviousTxOutIndex := 1, PreviousTxSatoshis := 5, PreviousTxScript := some [1, 2], UnlockingScript := none, SequenceNumber := 9 },
   .addOutput 0 { Satoshis := 3, LockingScript := [0x6a] }, .addOutput 1 { Satoshis := 4, LockingScript := [] }, .apply 0 0 [0x51], .parse (Slice.exact (Transaction.New).ToBytes)]

/-! ## C76 -/

/-- C76: whatever the pointers share, a transaction object that shows the value `T` is read as `T` by every reading method. -/
theorem C76_reads (H : HashFns) (σ : Store) (t : Nat) (T : Transaction) (h : Reads σ t T) :
    ToBytes σ t = .ok T.ToBytes ∧ (∀ i s, ToBytesWithClearedInputs σ t i s = .ok (T.ToBytesWithClearedInputs i s)) ∧ GetTxID H σ t = .ok (T.GetTxID H) ∧
    InputCount σ t = .ok T.InputCount ∧ OutputCount σ t = .ok T.OutputCount ∧ IsCoinbase σ t = .ok T.IsCoinbase ∧
    GetTotalOutputSatoshis σ t = .ok T.GetTotalOutputSatoshis ∧ ∀ n f, GetInputSignatureHash H σ t n f = T.GetInputSignatureHash H n f := by
  refine ⟨toBytesHelper_eq h _ _, fun i s => toBytesHelper_eq h i s, ?_, ?_, ?_, ?_, ?_, fun n f => signatureHash_eq H h n f⟩
  · unfold GetTxID ToBytes; rw [toBytesHelper_eq h]; rfl
  · obtain ⟨o, ho, w1, w2, hv, hl, hi, hos⟩ := h
    simp only [InputCount, Store.tx, index_some ho, Res.ok_bind, Transaction.InputCount, ← hi.length_eq, refs_length w1]; rfl
  · obtain ⟨o, ho, w1, w2, hv, hl, hi, hos⟩ := h
    simp only [OutputCount, Store.tx, index_some ho, Res.ok_bind, Transaction.OutputCount, ← hos.length_eq, refs_length w2]; rfl
  · obtain ⟨o, ho, w1, w2, hv, hl, hi, hos⟩ := h
    simp only [IsCoinbase, Store.tx, index_some ho, Res.ok_bind]
    unfold Transaction.IsCoinbase
    generalize σ.refs o.Inputs = rs at hi
    generalize T.Inputs = is at hi
    cases hi with
    | nil => rfl
    | cons h1 h2 =>
      cases h2 with
      | nil =>
        obtain ⟨k, q, rfl, hq, e1, e2, -, -, -, e6⟩ := h1
        simp only [Store.input, index_some hq, Res.ok_bind, e1, e2, e6]
        rfl
      | cons _ _ => rfl
  · obtain ⟨o, ho, w1, w2, hv, hl, hi, hos⟩ := h
    simp only [GetTotalOutputSatoshis, Store.tx, index_some ho, Res.ok_bind, Transaction.GetTotalOutputSatoshis]
    generalize (0 : UInt64) = z
    generalize σ.refs o.Outputs = rs at hos
    generalize T.Outputs = os at hos
    induction hos generalizing z with
    | nil => rfl
    | cons h1 _ ih =>
      obtain ⟨k, q, rfl, hq, e1, -⟩ := h1
      simp only [totalLoop, Store.output, index_some hq, Res.ok_bind, List.foldl_cons, e1]
      exact ih _

/-! ## C77 -/

/-- C77: any history of calls that hands no object to two transactions shows, through all the pointers, exactly what the value-level functions compute call by call; it panics iff
they do. For every growth policy of `append`. -/
theorem C77_history (H : HashFns) (g : Nat → Nat) (cs : List Call) :
    (runCalls H g cs Store.empty = .panic ∧ runValues H cs ⟨[], []⟩ = .panic) ∨
    ∃ σ v, runCalls H g cs Store.empty = .ok σ ∧ runValues H cs ⟨[], []⟩ = .ok v ∧ σ.txs.length = v.txs.length ∧ ∀ (t : Nat) (T : Transaction), v.txs[t]? = some T → Reads σ t T := by
  rcases calls_sim H g cs empty_sim with h | ⟨σ, v, h1, h2, h3⟩
  · exact Or.inl h
  · exact Or.inr ⟨σ, v, h1, h2, h3.len, h3.reads⟩

/-- C77, independence: in such a history a call on one transaction leaves what every other one shows. -/
theorem C77_others (H : HashFns) (g : Nat → Nat) (cs : List Call) (σ σ' : Store) (h : runCalls H g cs Store.empty = .ok σ) (c : Call) (hc : c.run H g σ = .ok σ')
    (u : Nat) (U : Transaction) (hu : c.target ≠ some u) (hU : Reads σ u U) : Reads σ' u U := by
  rcases calls_sim H g cs empty_sim with ⟨h1, -⟩ | ⟨σ0, v, h1, h2, s⟩
  · rw [h] at h1; cases h1
  rw [h] at h1; cases h1
  rcases call_sim H g s c with ⟨k1, -⟩ | ⟨σ1, v', k1, k2, s'⟩
  · rw [hc] at k1; cases k1
  rw [hc] at k1; cases k1
  obtain ⟨o, ho, -⟩ := id hU
  obtain ⟨U', hU', R'⟩ := s.obj ho
  have hval : v'.txs[u]? = some U' := by
    have at_ne : ∀ {t : Nat} {f : Transaction → Res Transaction} {w : Values}, v.at t f = .ok w → t ≠ u → w.txs[u]? = some U' := by
      intro t f w hw ht
      unfold Values.at at hw
      obtain ⟨x, -, hw⟩ := Res.bind_eq_ok.1 hw
      obtain ⟨y, -, hw⟩ := Res.bind_eq_ok.1 hw
      cases hw
      simp only
      rw [List.getElem?_set_ne ht]; exact hU'
    have snoc : ∀ x : Transaction, (v.txs ++ [x])[u]? = some U' := by
      intro x
      rw [List.getElem?_append_left (List.getElem?_eq_some_iff.1 hU').1]; exact hU'
    cases c with
    | new => cases k2; exact snoc _
    | parse b =>
      simp only [Call.runValues] at k2
      split at k2
      · cases k2; exact snoc _
      · cases k2; exact hU'
      · cases k2
    | signer x => cases k2; exact hU'
    | sign t idx sg =>
      obtain ⟨x, -, k2⟩ := Res.bind_eq_ok.1 k2
      exact at_ne k2 (fun e => hu (by rw [e]; rfl))
    | signAuto t sg =>
      obtain ⟨x, -, k2⟩ := Res.bind_eq_ok.1 k2
      exact at_ne k2 (fun e => hu (by rw [e]; rfl))
    | _ => exact at_ne k2 (fun e => hu (by rw [e]; rfl))
  have := reads_unique hU R'
  rw [this]
  exact s'.reads u U' hval

/-- C77, results of signing in such a history: `Sign` returns the error the value-level function returns and then leaves the transaction, or succeeds and shows its result. -/
theorem C77_sign (H : HashFns) (g : Nat → Nat) (cs : List Call) (σ : Store) (h : runCalls H g cs Store.empty = .ok σ) (sg : Nat) (a : InternalSigner) (ha : σ.signers[sg]? = some a)
    (t : Nat) (T : Transaction) (hT : Reads σ t T) (idx : UInt32) :
    match a.Sign H idx T with
    | .ok T' => ∃ σ', Sign σ t idx (internal H sg) = .ok (σ', .ok ()) ∧ Reads σ' t T'
    | .err e => ∃ σ', Sign σ t idx (internal H sg) = .ok (σ', .error e) ∧ Reads σ' t T
    | .panic => Sign σ t idx (internal H sg) = .panic := by
  rcases calls_sim H g cs empty_sim with ⟨h1, -⟩ | ⟨σ0, v, h1, h2, s⟩
  · rw [h] at h1; cases h1
  rw [h] at h1; cases h1
  obtain ⟨o, ho, -⟩ := id hT
  obtain ⟨T1, hT1, R1⟩ := s.obj ho
  cases reads_unique hT R1
  have htl := (List.getElem?_eq_some_iff.1 hT1).1
  rcases internalSign_sim H s hT1 idx ha rfl with ⟨k1, k2⟩ | ⟨σ', e, k1, k2, k3⟩ | ⟨σ', T', k1, k2, k3⟩
  · rw [k2]; simp only [Sign, internal, k1]; rfl
  · rw [k2]; simp only [Sign, internal, k1]
    exact ⟨σ', rfl, k3.reads t T hT1⟩
  · rw [k2]; simp only [Sign, internal, k1]
    have R := k3.reads t T' (List.getElem?_set_self htl)
    obtain ⟨o', ho', -⟩ := id R
    have hx : σ'.tx (some t) = .ok o' := index_some ho'
    exact ⟨σ', by simp only [Res.ok_bind, assign, hx, setTx_same ho']; rfl, R⟩

/-- The history `exCalls` does not panic and ends with three transactions, the first with an unlocked input. -/
example : ∃ σ v, runCalls toyH id exCalls Store.empty = .ok σ ∧ runValues toyH exCalls ⟨[], []⟩ = .ok v ∧ v.txs.length = 3 ∧
    ∀ (t : Nat) (T : Transaction), v.txs[t]? = some T → Reads σ t T := by
  have hv : ∃ v, runValues toyH exCalls ⟨[], []⟩ = .ok v ∧ v.txs.length = 3 := ⟨_, rfl, rfl⟩
  obtain ⟨v, hv, hl⟩ := hv
  rcases C77_history toyH id exCalls with ⟨-, h⟩ | ⟨σ, v', h1, h2, -, h3⟩
  · rw [hv] at h; cases h
  · rw [hv] at h2; cases h2
    exact ⟨σ, v, h1, hv, hl, h3⟩

/-- A call on the first transaction of this history: the others are shown as before. -/
example (σ σ' : Store) (h : runCalls toyH id exCalls Store.empty = .ok σ) (hc : Call.run toyH id σ (.apply 0 0 [0x52]) = .ok σ') (U : Transaction) (hU : Reads σ 1 U) :
    Reads σ' 1 U := C77_others toyH id exCalls σ σ' h _ hc 1 U (by decide) hU

/-! ## C78 -/

/-- C78: `ApplyUnlockingScript` changes the input object the position points to. What every transaction shows changes at exactly the positions that hold this pointer, in whatever
transaction they are, and nowhere else. (`b` is `none` for a nil script pointer.) -/
theorem C78_apply (σ σ' : Store) (t : Nat) (idx : UInt32) (r : Ref) (b : Option Bytes) (hr : seesScript σ r b) (h : ApplyUnlockingScript σ t idx r = .ok σ') :
    ∃ o k, σ.txs[t]? = some o ∧ (σ.refs o.Inputs)[idx.toNat]? = some (some k) ∧
      ∀ (u : Nat) (x : TxObj) (U : Transaction), σ.txs[u]? = some x → Reads σ u U →
        ∃ is, Reads σ' u { U with Inputs := is } ∧ is.length = U.Inputs.length ∧
          ∀ (j : Nat) (i : Input), U.Inputs[j]? = some i →
            is[j]? = some (if (σ.refs x.Inputs)[j]? = some (some k) then { i with UnlockingScript := b } else i) := by
  unfold ApplyUnlockingScript at h
  obtain ⟨o, ho, h⟩ := Res.bind_eq_ok.1 h
  obtain ⟨p, hp, h⟩ := Res.bind_eq_ok.1 h
  have ho' : σ.txs[t]? = some o := index_ok.1 ho
  have hp' := index_ok.1 hp
  cases p with
  | none => cases h
  | some k =>
    obtain ⟨q, hq, h⟩ := Res.bind_eq_ok.1 h
    have hq' : σ.inputs[k]? = some q := index_ok.1 hq
    cases h
    refine ⟨o, k, ho', hp', ?_⟩
    intro u x U hx hU
    obtain ⟨x', hx', w1, w2, hv, hl, hi, hos⟩ := id hU
    rw [hx] at hx'; cases hx'
    refine ⟨_, reads_set hq' hr hx hU, by rw [List.length_zipWith, hi.length_eq, Nat.min_self], ?_⟩
    intro j i hj
    rw [List.getElem?_zipWith]
    rcases forall₂_getElem? hi j with ⟨-, e2⟩ | ⟨p, i', e1, e2, -⟩
    · rw [e2] at hj; cases hj
    · rw [e2] at hj; cases hj
      rw [e1, e2]
      by_cases e : p = some k
      · subst e; simp
      · simp [e]

/-- C78, nothing but the one input object changes. -/
theorem C78_apply_only (σ σ' : Store) (t : Nat) (idx : UInt32) (r : Ref) (h : ApplyUnlockingScript σ t idx r = .ok σ') :
    ∃ k i, σ.inputs[k]? = some i ∧ σ' = { σ with inputs := σ.inputs.set k { i with UnlockingScript := r } } := by
  unfold ApplyUnlockingScript at h
  obtain ⟨o, ho, h⟩ := Res.bind_eq_ok.1 h
  obtain ⟨p, hp, h⟩ := Res.bind_eq_ok.1 h
  cases p with
  | none => cases h
  | some k =>
    obtain ⟨q, hq, h⟩ := Res.bind_eq_ok.1 h
    cases h
    exact ⟨k, q, index_ok.1 hq, rfl⟩

/-- C78, signing: the script a signer makes for input `idx` of transaction `t`, over the digest of `t`, lands in every transaction that holds the same input object. -/
theorem C78_sign (H : HashFns) (σ σ' : Store) (sg : Nat) (a : InternalSigner) (ha : σ.signers[sg]? = some a) (idx : UInt32) (t : Nat) (T : Transaction) (hT : Reads σ t T) (r : Ref)
    (h : InternalSign H σ sg idx t = .ok (σ', .ok r)) :
    r = some t ∧ ∃ sh sig o k, T.GetInputSignatureHash H idx a.effFlag = .ok sh ∧ a.sign (ReverseBytes sh) = .ok sig ∧ σ.txs[t]? = some o ∧
      (σ.refs o.Inputs)[idx.toNat]? = some (some k) ∧
      ∀ (u : Nat) (x : TxObj) (U : Transaction), σ.txs[u]? = some x → Reads σ u U →
        ∃ is, Reads σ' u { U with Inputs := is } ∧ is.length = U.Inputs.length ∧
          ∀ (j : Nat) (i : Input), U.Inputs[j]? = some i →
            is[j]? = some (if (σ.refs x.Inputs)[j]? = some (some k) then { i with UnlockingScript := some (NewP2PKHUnlockingScript a.pubKey sig a.effFlag).1 } else i) := by
  unfold InternalSign at h
  simp only [index_some ha, Res.ok_bind] at h
  have R : Reads (defaultFlag σ sg a) t T := hT
  rw [signatureHash_eq H R] at h
  split at h
  · cases h
  · cases h
  rename_i sh hsh
  split at h
  · cases h
  · cases h
  rename_i sig hsig
  split at h
  · cases h
  · cases h
  rename_i σ2 hap
  cases h
  have e := ext_newScript (defaultFlag σ sg a) (NewP2PKHUnlockingScript a.pubKey sig a.effFlag).1
  obtain ⟨o, k, h1, h2, h3⟩ := C78_apply _ _ t idx _ _ (sees_newScript (defaultFlag σ sg a) _) hap
  refine ⟨rfl, sh, sig, o, k, hsh, hsig, h1, h2, ?_⟩
  intro u x U hx hU
  have hU' : Reads (defaultFlag σ sg a) u U := hU
  exact h3 u x U hx (e.reads hU')

/-- One input object added to two new transactions, then unlocked through the first. -/
def exSharing (g : Nat → Nat) (i : Input) (s : Bytes) : Res Store := do
  let a := New Store.empty
  let b := New a.1
  let p := mkInput b.1 i
  let σ ← AddInput g p.1 0 p.2
  let σ ← AddInput g σ 1 p.2
  let r := σ.newScript s
  ApplyUnlockingScript r.1 0 0 r.2

/-- C78, the claim "transactions are independent" fails when an input object is handed to two of them: unlocking the input of the first unlocks it in the second (for every
input, script and growth policy). -/
theorem C78_shared_violated (g : Nat → Nat) (i : Input) (s : Bytes) :
    ∃ σ, exSharing g i s = .ok σ ∧ Reads σ 1 { Transaction.New with Inputs := [{ i with UnlockingScript := some s }] } := by
  obtain ⟨a1, a2, a3, a4, a5, a6⟩ := i
  cases a4 <;> cases a5 <;>
  · refine ⟨_, rfl, ?_⟩
    refine ⟨_, rfl, ?_, ?_, rfl, rfl, ?_, ?_⟩
    · exact ⟨show 0 + 1 ≤ 0 + 1 + g 0 by omega, Or.inr ⟨some 0 :: List.replicate (g 0) none, rfl, show 0 + 1 + g 0 ≤ _ by simp; omega⟩⟩
    · exact ⟨le_refl _, Or.inl rfl⟩
    · exact .cons ⟨0, _, rfl, rfl, rfl, rfl, rfl, by first | exact rfl | exact ⟨rfl, rfl⟩, by first | exact rfl | exact ⟨rfl, rfl⟩, rfl⟩ .nil
    · exact .nil

/-- Two transactions and two positions of the second holding one input object. -/
def exTwice : Store :=
  { scripts := [[1, 2], [0x51], [0x6a]], inputs := [⟨hexEncode (List.replicate 32 7), 0, 5, some 0, none, 9⟩, ⟨hexEncode (List.replicate 32 8), 1, 6, some 0, some 2, 9⟩],
    outputs := [], arrays := [[some 0], [some 0, some 1, some 0, none]], txs := [⟨1, ⟨0, 1, 1⟩, ⟨0, 0, 0⟩, 0⟩, ⟨2, ⟨1, 3, 4⟩, ⟨0, 0, 0⟩, 0⟩], signers := [] }

def exTwiceA : Input := { PreviousTxID := hexEncode (List.replicate 32 7), PreviousTxOutIndex := 0, PreviousTxSatoshis := 5, PreviousTxScript := some [1, 2], UnlockingScript := none, SequenceNumber := 9 }
def exTwiceB : Input := { PreviousTxID := hexEncode (List.replicate 32 8), PreviousTxOutIndex := 1, PreviousTxSatoshis := 6, PreviousTxScript := some [1, 2], UnlockingScript := some [0x6a], SequenceNumber := 9 }

theorem exTwice_reads : Reads exTwice 1 { Version := 2, Inputs := [exTwiceA, exTwiceB, exTwiceA], Outputs := [], Locktime := 0 } := by
  have hA : seesInput exTwice (some 0) exTwiceA := ⟨0, _, rfl, rfl, rfl, rfl, rfl, ⟨rfl, rfl⟩, rfl, rfl⟩
  have hB : seesInput exTwice (some 1) exTwiceB := ⟨1, _, rfl, rfl, rfl, rfl, rfl, ⟨rfl, rfl⟩, ⟨rfl, rfl⟩, rfl⟩
  exact ⟨_, rfl, ⟨by decide, Or.inr ⟨_, rfl, by decide⟩⟩, ⟨by decide, Or.inl rfl⟩, rfl, rfl, .cons hA (.cons hB (.cons hA .nil)), .nil⟩

/-- Reading does not mind the sharing (C76), and unlocking the input of transaction 0 unlocks positions 0 and 2 of transaction 1 (C78). -/
example : ToBytes exTwice 1 = .ok ({ Version := 2, Inputs := [exTwiceA, exTwiceB, exTwiceA], Outputs := [], Locktime := 0 } : Transaction).ToBytes ∧
    ∃ σ' is, ApplyUnlockingScript exTwice 0 0 (some 1) = .ok σ' ∧ Reads σ' 1 { Version := 2, Inputs := is, Outputs := [], Locktime := 0 } ∧
      is[0]? = some { exTwiceA with UnlockingScript := some [0x51] } ∧ is[1]? = some exTwiceB ∧ is[2]? = some { exTwiceA with UnlockingScript := some [0x51] } := by
  refine ⟨(C76_reads toyH _ _ _ exTwice_reads).1, ?_⟩
  have h : ∃ σ', ApplyUnlockingScript exTwice 0 0 (some 1) = .ok σ' := ⟨_, rfl⟩
  obtain ⟨σ', h⟩ := h
  obtain ⟨o, k, h1, h2, h3⟩ := C78_apply exTwice σ' 0 0 (some 1) (some [0x51]) ⟨rfl, rfl⟩ h
  obtain ⟨is, k1, -, k3⟩ := h3 1 _ _ rfl exTwice_reads
  cases h1
  cases h2
  exact ⟨σ', is, h, k1, k3 0 _ rfl, k3 1 _ rfl, k3 2 _ rfl⟩

/-! ## C79 -/

theorem mem_get {α : Type} {l : List α} {k : Nat} {a : α} (h : l[k]? = some a) : a ∈ l := List.mem_of_getElem? h

theorem script_of {σ : Store} (hb : Ref) (h : inBounds σ.scripts hb) : ∃ b, seesScript σ hb b := by
  cases hb with
  | none => exact ⟨none, rfl⟩
  | some k =>
    have hk := h k rfl
    exact ⟨some σ.scripts[k], rfl, List.getElem?_eq_getElem hk⟩

theorem input_of {σ : Store} (v : Valid σ) {r : Ref} (h : inBounds σ.inputs r) (hr : r ≠ none) : ∃ i, seesInput σ r i := by
  cases r with
  | none => exact absurd rfl hr
  | some k =>
    have hk := h k rfl
    have hm : σ.inputs[k] ∈ σ.inputs := List.getElem_mem hk
    obtain ⟨b1, h1⟩ := script_of _ (v.prevScripts _ hm)
    obtain ⟨b2, h2⟩ := script_of _ (v.unlockingScripts _ hm)
    exact ⟨⟨σ.inputs[k].PreviousTxID, σ.inputs[k].PreviousTxOutIndex, σ.inputs[k].PreviousTxSatoshis, b1, b2, σ.inputs[k].SequenceNumber⟩, k, σ.inputs[k], rfl,
      List.getElem?_eq_getElem hk, rfl, rfl, rfl, h1, h2, rfl⟩

theorem output_of {σ : Store} (v : Valid σ) {r : Ref} (h : inBounds σ.outputs r) (hr : ¬badOutput σ r) : ∃ o, seesOutput σ r o := by
  cases r with
  | none => exact absurd (Or.inl rfl) hr
  | some k =>
    have hk := h k rfl
    have hm : σ.outputs[k] ∈ σ.outputs := List.getElem_mem hk
    obtain ⟨b1, h1⟩ := script_of _ (v.lockingScripts _ hm)
    cases hl : σ.outputs[k].LockingScript with
    | none => exact absurd (Or.inr ⟨k, _, rfl, List.getElem?_eq_getElem hk, hl⟩) hr
    | some j =>
      rw [hl] at h1
      obtain ⟨s, rfl, h2⟩ := seesScript_some h1
      refine ⟨⟨σ.outputs[k].Satoshis, s⟩, k, _, rfl, List.getElem?_eq_getElem hk, rfl, ?_⟩
      rw [hl]; exact h1

theorem forall₂_of_each {α β : Type} {R : α → β → Prop} : ∀ {l : List α}, (∀ a ∈ l, ∃ b, R a b) → ∃ m, List.Forall₂ R l m
  | [], _ => ⟨[], .nil⟩
  | a :: l, h => by
    obtain ⟨b, hb⟩ := h a (by simp)
    obtain ⟨m, hm⟩ := forall₂_of_each (R := R) (l := l) fun x hx => h x (by simp [hx])
    exact ⟨b :: m, .cons hb hm⟩

theorem forall₂_mem {α β : Type} {R : α → β → Prop} {l : List α} {m : List β} (h : List.Forall₂ R l m) : ∀ a ∈ l, ∃ b, R a b := by
  induction h with
  | nil => intro a ha; simp at ha
  | cons h _ ih =>
    intro a ha
    rcases List.mem_cons.1 ha with rfl | ha
    · exact ⟨_, h⟩
    · exact ih a ha

theorem seesOutput_good {σ : Store} {r : Ref} {x : Output} (h : seesOutput σ r x) : ¬badOutput σ r := by
  rintro (rfl | ⟨k, o, rfl, ho, hl⟩)
  · obtain ⟨k, b, e, -⟩ := h; cases e
  · obtain ⟨k', b, e, hb, -, h2⟩ := h
    cases e
    rw [ho] at hb; cases hb
    rw [hl] at h2
    cases h2

/-- C79: a transaction shows a value (and then C76 applies: nothing panics) iff it holds no nil input, no nil output and no output without script. -/
theorem C79_shows (σ : Store) (v : Valid σ) (t : Nat) (o : TxObj) (ho : σ.txs[t]? = some o) :
    (∃ T, Reads σ t T) ↔ none ∉ σ.refs o.Inputs ∧ ∀ r ∈ σ.refs o.Outputs, ¬badOutput σ r := by
  constructor
  · rintro ⟨T, o', ho', w1, w2, hv, hl, hi, hos⟩
    rw [ho] at ho'; cases ho'
    refine ⟨?_, ?_⟩
    · intro hn
      obtain ⟨i, k, q, e, -⟩ := forall₂_mem hi _ hn
      cases e
    · intro r hr
      obtain ⟨x, hx⟩ := forall₂_mem hos _ hr
      exact seesOutput_good hx
  · rintro ⟨h1, h2⟩
    have hm := mem_get ho
    obtain ⟨is, his⟩ := forall₂_of_each (R := seesInput σ) (l := σ.refs o.Inputs) fun r hr =>
      input_of v (v.inputRefs o hm r hr) (fun e => h1 (e ▸ hr))
    obtain ⟨os, hos⟩ := forall₂_of_each (R := seesOutput σ) (l := σ.refs o.Outputs) fun r hr => output_of v (v.outputRefs o hm r hr) (h2 r hr)
    exact ⟨⟨o.Version, is, os, o.Locktime⟩, o, ho, (v.slices o hm).1, (v.slices o hm).2, rfl, rfl, his, hos⟩

theorem concatMap_total {f : Ref → Res Bytes} {bad : Ref → Prop} : ∀ {ps : List Ref}, (∀ p ∈ ps, (f p = .panic ∧ bad p) ∨ ((∃ b, f p = .ok b) ∧ ¬bad p)) →
    (concatMap f ps = .panic ∧ ∃ p ∈ ps, bad p) ∨ ((∃ b, concatMap f ps = .ok b) ∧ ∀ p ∈ ps, ¬bad p)
  | [], _ => Or.inr ⟨⟨[], rfl⟩, by simp⟩
  | p :: ps, h => by
    rcases h p (by simp) with ⟨h1, h2⟩ | ⟨⟨b, h1⟩, h2⟩
    · left; exact ⟨by simp only [concatMap, h1]; rfl, p, by simp, h2⟩
    · rcases concatMap_total (ps := ps) fun q hq => h q (by simp [hq]) with ⟨k1, q, hq, k2⟩ | ⟨⟨c, k1⟩, k2⟩
      · left; exact ⟨by simp only [concatMap, h1, k1, Res.ok_bind]; rfl, q, by simp [hq], k2⟩
      · right
        refine ⟨⟨b ++ c, by simp only [concatMap, h1, k1, Res.ok_bind]; rfl⟩, ?_⟩
        intro q hq
        rcases List.mem_cons.1 hq with rfl | hq
        · exact h2
        · exact k2 q hq

theorem inputToBytes_total {σ : Store} (v : Valid σ) {r : Ref} (h : inBounds σ.inputs r) (c : Bool) :
    (inputToBytes σ c r = .panic ∧ r = none) ∨ ((∃ b, inputToBytes σ c r = .ok b) ∧ ¬r = none) := by
  by_cases hr : r = none
  · subst hr; left; exact ⟨rfl, rfl⟩
  · right
    obtain ⟨i, hi⟩ := input_of v h hr
    exact ⟨⟨_, inputToBytes_eq hi c⟩, hr⟩

theorem outputToBytes_total {σ : Store} (v : Valid σ) {r : Ref} (h : inBounds σ.outputs r) :
    (outputToBytes σ r = .panic ∧ badOutput σ r) ∨ ((∃ b, outputToBytes σ r = .ok b) ∧ ¬badOutput σ r) := by
  by_cases hr : badOutput σ r
  · left
    refine ⟨?_, hr⟩
    rcases hr with rfl | ⟨k, o, rfl, ho, hl⟩
    · rfl
    · simp only [outputToBytes, Store.output, index_some ho, Res.ok_bind, hl]
      rfl
  · right
    obtain ⟨o, ho⟩ := output_of v h hr
    exact ⟨⟨_, outputToBytes_eq ho⟩, hr⟩

theorem inputsHelper_total {σ : Store} (v : Valid σ) (idx : Int) (spk : Option Bytes) : ∀ {ps : List Ref} (n : Nat), (∀ p ∈ ps, inBounds σ.inputs p) →
    (inputsHelper σ idx spk n ps = .panic ∧ none ∈ ps) ∨ ((∃ b, inputsHelper σ idx spk n ps = .ok b) ∧ none ∉ ps)
  | [], n, _ => Or.inr ⟨⟨[], rfl⟩, by simp⟩
  | p :: ps, n, h => by
    rcases inputToBytes_total v (h p (by simp)) spk.isSome with ⟨h1, rfl⟩ | ⟨⟨b, h1⟩, h2⟩
    · left; exact ⟨by simp only [inputsHelper, h1]; rfl, by simp⟩
    · rcases inputsHelper_total v idx spk (ps := ps) (n + 1) fun q hq => h q (by simp [hq]) with ⟨k1, k2⟩ | ⟨⟨c, k1⟩, k2⟩
      · left; exact ⟨by simp only [inputsHelper, h1, k1, Res.ok_bind]; rfl, by simp [k2]⟩
      · right
        refine ⟨⟨_, by simp only [inputsHelper, h1, k1, Res.ok_bind]; rfl⟩, ?_⟩
        intro hm
        rcases List.mem_cons.1 hm with e | hm
        · exact h2 e.symm
        · exact k2 hm

/-- A valid store with a nil input, a nil output and an output without script. -/
def exNil : Store :=
  { scripts := [[1]], inputs := [⟨[0x61], 0, 5, some 0, none, 9⟩], outputs := [⟨5, none⟩, ⟨6, some 0⟩], arrays := [[some 0, none], [some 1, some 0, none], [some 1]],
    txs := [⟨1, ⟨0, 2, 2⟩, ⟨2, 1, 1⟩, 0⟩, ⟨1, ⟨0, 1, 2⟩, ⟨1, 3, 3⟩, 0⟩, ⟨1, ⟨0, 1, 2⟩, ⟨2, 1, 1⟩, 0⟩], signers := [] }

theorem exNil_valid : Valid exNil := by
  refine ⟨?_, ?_, ?_, ?_, ?_, ?_⟩
  · intro t ht
    simp only [exNil, List.mem_cons, List.not_mem_nil, or_false] at ht
    rcases ht with rfl | rfl | rfl <;> exact ⟨⟨by decide, Or.inr ⟨_, rfl, by decide⟩⟩, ⟨by decide, Or.inr ⟨_, rfl, by decide⟩⟩⟩
  · intro t ht r hr k e
    simp only [exNil, List.mem_cons, List.not_mem_nil, or_false] at ht
    subst e
    rcases ht with rfl | rfl | rfl <;> simp [exNil, Store.refs] at hr ⊢ <;> omega
  · intro t ht r hr k e
    simp only [exNil, List.mem_cons, List.not_mem_nil, or_false] at ht
    subst e
    rcases ht with rfl | rfl | rfl <;> simp [exNil, Store.refs] at hr ⊢ <;> omega
  · intro i hi k e; simp [exNil] at hi ⊢; subst hi; cases e; decide
  · intro i hi k e; simp [exNil] at hi ⊢; subst hi; cases e
  · intro i hi k e
    simp [exNil] at hi ⊢
    rcases hi with rfl | rfl
    · cases e
    · cases e; decide

/-- Transaction 0 has a nil input, transaction 1 a nil output and an output without script, transaction 2 neither. -/
example : (¬∃ T, Reads exNil 0 T) ∧ (¬∃ T, Reads exNil 1 T) ∧ ∃ T, Reads exNil 2 T := by
  refine ⟨?_, ?_, ?_⟩
  · rw [C79_shows exNil exNil_valid 0 _ rfl]
    rintro ⟨h, -⟩
    exact h (by decide)
  · rw [C79_shows exNil exNil_valid 1 _ rfl]
    rintro ⟨-, h⟩
    exact h none (by decide) (Or.inl rfl)
  · rw [C79_shows exNil exNil_valid 2 _ rfl]
    refine ⟨by decide, ?_⟩
    intro r hr
    have : r = some 1 := by simpa [exNil, Store.refs] using hr
    subst this
    rintro (h | ⟨k, o, e, ho, hl⟩)
    · cases h
    · cases e; cases ho; cases hl

/-- C79: writing a transaction out panics exactly on a nil input, a nil output or an output without script; it never returns an error. (Also with cleared inputs; `GetTxID` is the
hash of these bytes.) -/
theorem C79_toBytes (σ : Store) (v : Valid σ) (t : Nat) (o : TxObj) (ho : σ.txs[t]? = some o) (i : Int) (s : Option Bytes) :
    (ToBytesWithClearedInputs σ t i s = .panic ↔ none ∈ σ.refs o.Inputs ∨ ∃ r ∈ σ.refs o.Outputs, badOutput σ r) ∧
    (ToBytes σ t = .panic ↔ none ∈ σ.refs o.Inputs ∨ ∃ r ∈ σ.refs o.Outputs, badOutput σ r) ∧
    (∀ e, ToBytesWithClearedInputs σ t i s ≠ .err e) ∧ ∀ e, ToBytes σ t ≠ .err e := by
  have hm := mem_get ho
  have key : ∀ i s, (toBytesHelper σ t i s = .panic ↔ none ∈ σ.refs o.Inputs ∨ ∃ r ∈ σ.refs o.Outputs, badOutput σ r) ∧ ∀ e, toBytesHelper σ t i s ≠ .err e := by
    intro i s
    rcases inputsHelper_total v i s (ps := σ.refs o.Inputs) 0 (v.inputRefs o hm) with ⟨h1, h2⟩ | ⟨⟨b, h1⟩, h2⟩
    · simp only [toBytesHelper, Store.tx, index_some ho, Res.ok_bind, h1]
      exact ⟨⟨fun _ => Or.inl h2, fun _ => rfl⟩, fun e h => (by cases h)⟩
    · rcases concatMap_total (ps := σ.refs o.Outputs) (fun p hp => outputToBytes_total v (v.outputRefs o hm p hp)) with ⟨k1, k2⟩ | ⟨⟨c, k1⟩, k2⟩
      · simp only [toBytesHelper, Store.tx, index_some ho, Res.ok_bind, h1, k1]
        exact ⟨⟨fun _ => Or.inr k2, fun _ => rfl⟩, fun e h => (by cases h)⟩
      · simp only [toBytesHelper, Store.tx, index_some ho, Res.ok_bind, h1, k1]
        refine ⟨⟨fun h => (by cases h), ?_⟩, fun e h => (by cases h)⟩
        rintro (h | ⟨r, hr, hb⟩)
        · exact absurd h h2
        · exact absurd hb (k2 r hr)
  exact ⟨(key i s).1, (key 0 none).1, (key i s).2, (key 0 none).2⟩

/-- C79: `ApplyUnlockingScript` panics exactly beyond the inputs, returns an error exactly on a nil entry, and succeeds otherwise. -/
theorem C79_apply (σ : Store) (v : Valid σ) (t : Nat) (o : TxObj) (ho : σ.txs[t]? = some o) (idx : UInt32) (s : Ref) :
    (ApplyUnlockingScript σ t idx s = .panic ↔ o.Inputs.len ≤ idx.toNat) ∧
    ((∃ e, ApplyUnlockingScript σ t idx s = .err e) ↔ (σ.refs o.Inputs)[idx.toNat]? = some none) ∧
    ((∃ σ', ApplyUnlockingScript σ t idx s = .ok σ') ↔ ∃ k, (σ.refs o.Inputs)[idx.toNat]? = some (some k)) := by
  have hm := mem_get ho
  have hlen := refs_length (v.slices o hm).1
  simp only [ApplyUnlockingScript, Store.tx, index_some ho, Res.ok_bind]
  cases hp : (σ.refs o.Inputs)[idx.toNat]? with
  | none =>
    rw [index_none hp]
    have := List.getElem?_eq_none_iff.1 hp
    refine ⟨⟨fun _ => (by omega), fun _ => rfl⟩, ⟨fun ⟨e, h⟩ => (by cases h), fun h => (by cases h)⟩, ⟨fun ⟨e, h⟩ => (by cases h), fun ⟨k, h⟩ => (by cases h)⟩⟩
  | some p =>
    have hlt := (List.getElem?_eq_some_iff.1 hp).1
    rw [index_some hp]
    simp only [Res.ok_bind]
    cases p with
    | none =>
      refine ⟨⟨fun h => (by cases h), fun h => by omega⟩, ⟨fun _ => rfl, fun _ => ⟨_, rfl⟩⟩, ⟨fun ⟨e, h⟩ => (by cases h), fun ⟨k, h⟩ => (by cases h)⟩⟩
    | some k =>
      have hk := v.inputRefs o hm _ (mem_get hp) k rfl
      have hq : σ.inputs[k]? = some σ.inputs[k] := List.getElem?_eq_getElem hk
      simp only [Store.input, index_some hq, Res.ok_bind]
      refine ⟨⟨fun h => (by cases h), fun h => by omega⟩, ⟨fun ⟨e, h⟩ => (by cases h), fun h => (by cases h)⟩, ⟨fun _ => ⟨k, rfl⟩, fun _ => ⟨_, rfl⟩⟩⟩

/-- C79: `IsCoinbase` panics exactly when the only input is nil, `GetTotalOutputSatoshis` exactly when some output is nil (an output without script is fine); the counts never
panic. -/
theorem C79_others (σ : Store) (v : Valid σ) (t : Nat) (o : TxObj) (ho : σ.txs[t]? = some o) :
    (IsCoinbase σ t = .panic ↔ σ.refs o.Inputs = [none]) ∧ (GetTotalOutputSatoshis σ t = .panic ↔ none ∈ σ.refs o.Outputs) ∧
    InputCount σ t = .ok (σ.refs o.Inputs).length ∧ OutputCount σ t = .ok (σ.refs o.Outputs).length := by
  have hm := mem_get ho
  refine ⟨?_, ?_, ?_, ?_⟩
  · simp only [IsCoinbase, Store.tx, index_some ho, Res.ok_bind]
    have hb := v.inputRefs o hm
    generalize σ.refs o.Inputs = rs at hb
    match rs, hb with
    | [], _ => exact ⟨fun h => (by cases h), fun h => (by cases h)⟩
    | [none], _ => exact ⟨fun _ => rfl, fun _ => rfl⟩
    | [some k], hb =>
      have hk := hb (some k) (by simp) k rfl
      have hq : σ.inputs[k]? = some σ.inputs[k] := List.getElem?_eq_getElem hk
      simp only [Store.input, index_some hq, Res.ok_bind]
      exact ⟨fun h => (by cases h), fun h => (by cases h)⟩
    | _ :: _ :: _, _ => exact ⟨fun h => (by cases h), fun h => (by cases h)⟩
  · simp only [GetTotalOutputSatoshis, Store.tx, index_some ho, Res.ok_bind]
    have hb := v.outputRefs o hm
    generalize (0 : UInt64) = z
    generalize σ.refs o.Outputs = rs at hb
    induction rs generalizing z with
    | nil => exact ⟨fun h => (by cases h), fun h => by simp at h⟩
    | cons r rs ih =>
      cases r with
      | none => exact ⟨fun _ => by simp, fun _ => rfl⟩
      | some k =>
        have hk := hb (some k) (by simp) k rfl
        have hq : σ.outputs[k]? = some σ.outputs[k] := List.getElem?_eq_getElem hk
        simp only [totalLoop, Store.output, index_some hq, Res.ok_bind]
        refine (ih _ (fun r hr => hb r (by simp [hr]))).trans ?_
        simp
  · simp only [InputCount, Store.tx, index_some ho, Res.ok_bind, refs_length (v.slices o hm).1]; rfl
  · simp only [OutputCount, Store.tx, index_some ho, Res.ok_bind, refs_length (v.slices o hm).2]; rfl

theorem index_no_err {α : Type} (l : List α) (n : Nat) (e : String) : index l n ≠ .err e := by
  unfold index; split <;> simp

theorem bind_no_err {α β : Type} {x : Res α} {f : α → Res β} (hx : ∀ e, x ≠ .err e) (hf : ∀ a e, f a ≠ .err e) (e : String) : (x >>= f) ≠ .err e := by
  cases x with
  | ok a => exact hf a e
  | err e' => exact absurd rfl (hx e')
  | panic => intro h; cases h

theorem internalSign_no_err (H : HashFns) (σ : Store) (sg : Nat) (idx : UInt32) (t : Nat) (e : String) : InternalSign H σ sg idx t ≠ .err e := by
  unfold InternalSign
  refine bind_no_err (index_no_err _ _) (fun s e => ?_) e
  dsimp only
  split
  · simp
  · simp
  · split
    · simp
    · simp
    · split <;> simp

theorem signAutoStep_no_err (H : HashFns) (sg : Nat) (c : InternalSigner) (t i : Nat) (p : Ref) (σ : Store) (e : String) : signAutoStep H sg c t i p σ ≠ .err e := by
  unfold signAutoStep
  refine bind_no_err ?_ (fun inp e => bind_no_err ?_ (fun scr e => ?_) e) e
  · cases p with
    | none => intro e h; cases h
    | some k => exact index_no_err _ _
  · cases inp.PreviousTxScript with
    | none => intro e h; cases h
    | some k => exact bind_no_err (index_no_err _ _) (fun a e => by simp)
  · cases GetPublicKeyHash scr with
    | panic => simp
    | _ =>
      dsimp only
      split
      · exact bind_no_err (internalSign_no_err H σ sg _ t) (fun a e => by simp) e
      · simp

/-- C79: automatic signing panics if any input is nil, even when the signer's own inputs come first. -/
theorem C79_signAuto (H : HashFns) (σ : Store) (t : Nat) (o : TxObj) (ho : σ.txs[t]? = some o) (hn : none ∈ σ.refs o.Inputs) (sg : Nat) :
    InternalSignAuto H σ sg t = .panic := by
  unfold InternalSignAuto
  cases hs : index σ.signers sg with
  | panic => rfl
  | err e => exact absurd hs (index_no_err _ _ _)
  | ok s =>
    have ho' : (defaultFlag σ sg s).tx (some t) = .ok o := index_some (l := (defaultFlag σ sg s).txs) ho
    simp only [Res.ok_bind, ho']
    have hn' : none ∈ (defaultFlag σ sg s).refs o.Inputs := hn
    generalize (defaultFlag σ sg s).refs o.Inputs = rs at hn'
    generalize defaultFlag σ sg s = τ
    suffices h : ∀ n, signAutoLoop H sg s t n rs τ = .panic by rw [h]; rfl
    clear ho ho' hn hs
    induction rs generalizing τ with
    | nil => simp at hn'
    | cons r rs ih =>
      intro n
      unfold signAutoLoop
      cases hst : signAutoStep H sg s t n r τ with
      | panic => rfl
      | err e => exact absurd hst (signAutoStep_no_err H sg s t n r τ e)
      | ok τ' =>
        rw [Res.ok_bind]
        rcases List.mem_cons.1 hn' with e | hm
        · subst e
          cases hst
        · exact ih hm _ _

theorem int32_small {n : UInt32} (h : n.toNat < 2 ^ 31) : Transaction.int32OfUint32 n = n.toNat := by
  unfold Transaction.int32OfUint32
  omega

/-- C79: the digest of an input with identifier and previous script panics exactly on the nil pointers the flag makes it follow: any nil input unless ANYONECANPAY, any bad output unless
SINGLE or NONE, the output of the same index with SINGLE. (For less than 2^31 outputs.) -/
theorem C79_digest (H : HashFns) (σ : Store) (v : Valid σ) (t : Nat) (o : TxObj) (ho : σ.txs[t]? = some o) (n : UInt32) (f : UInt8) (k : Nat) (q : InputObj)
    (hk : (σ.refs o.Inputs)[n.toNat]? = some (some k)) (hq : σ.inputs[k]? = some q) (hid : q.PreviousTxID ≠ []) (hps : q.PreviousTxScript ≠ none)
    (hout : (σ.refs o.Outputs).length < 2 ^ 31) :
    GetInputSignatureHash H σ t n f = .panic ↔
      (f &&& sighash.AnyOneCanPay = 0 ∧ none ∈ σ.refs o.Inputs) ∨
      (f &&& 31 ≠ sighash.Single ∧ f &&& 31 ≠ sighash.None ∧ ∃ r ∈ σ.refs o.Outputs, badOutput σ r) ∨
      (f &&& 31 = sighash.Single ∧ ∃ r, (σ.refs o.Outputs)[n.toNat]? = some r ∧ badOutput σ r) := by
  have hm := mem_get ho
  have hl2 := refs_length (v.slices o hm).2
  obtain ⟨k2, hk2⟩ : ∃ k2, q.PreviousTxScript = some k2 := Option.ne_none_iff_exists'.1 hps
  have hk2l := v.prevScripts q (mem_get hq) k2 hk2
  have hscr : σ.scripts[k2]? = some σ.scripts[k2] := List.getElem?_eq_getElem hk2l
  have hscr' : σ.script (some k2) = .ok σ.scripts[k2] := index_some hscr
  have hinp : σ.input (some k) = .ok q := index_some hq
  have inputsF : ∀ g : InputObj → Bytes, ∀ p ∈ σ.refs o.Inputs,
      ((do let i ← σ.input p; pure (g i) : Res Bytes) = .panic ∧ p = none) ∨ ((∃ b, (do let i ← σ.input p; pure (g i) : Res Bytes) = .ok b) ∧ ¬p = none) := by
    intro g p hp
    cases p with
    | none => left; exact ⟨rfl, rfl⟩
    | some j =>
      have hj := v.inputRefs o hm _ hp j rfl
      have : σ.input (some j) = .ok σ.inputs[j] := index_some (List.getElem?_eq_getElem hj)
      right; rw [this]; exact ⟨⟨_, rfl⟩, by simp⟩
  have hPrev : (getPrevoutHash H σ o = .panic ∧ none ∈ σ.refs o.Inputs) ∨ ((∃ b, getPrevoutHash H σ o = .ok b) ∧ none ∉ σ.refs o.Inputs) := by
    rcases concatMap_total (inputsF fun i => ReverseBytes (hexDecodeIgnore i.PreviousTxID) ++ putUint32 i.PreviousTxOutIndex) with ⟨h1, p, hp, rfl⟩ | ⟨⟨b, h1⟩, h2⟩
    · left; unfold getPrevoutHash; rw [h1]; exact ⟨rfl, hp⟩
    · right; unfold getPrevoutHash; rw [h1]; exact ⟨⟨_, rfl⟩, fun h => h2 _ h rfl⟩
  have hSeq : (getSequenceHash H σ o = .panic ∧ none ∈ σ.refs o.Inputs) ∨ ((∃ b, getSequenceHash H σ o = .ok b) ∧ none ∉ σ.refs o.Inputs) := by
    rcases concatMap_total (inputsF fun i => putUint32 i.SequenceNumber) with ⟨h1, p, hp, rfl⟩ | ⟨⟨b, h1⟩, h2⟩
    · left; unfold getSequenceHash; rw [h1]; exact ⟨rfl, hp⟩
    · right; unfold getSequenceHash; rw [h1]; exact ⟨⟨_, rfl⟩, fun h => h2 _ h rfl⟩
  have hOut : (getOutputsHash H σ o (-1) = .panic ∧ ∃ r ∈ σ.refs o.Outputs, badOutput σ r) ∨ ((∃ b, getOutputsHash H σ o (-1) = .ok b) ∧ ∀ r ∈ σ.refs o.Outputs, ¬badOutput σ r) := by
    rcases concatMap_total (ps := σ.refs o.Outputs) (fun p hp => outputToBytes_total v (v.outputRefs o hm p hp)) with ⟨h1, h2⟩ | ⟨⟨b, h1⟩, h2⟩
    · left; unfold getOutputsHash; rw [if_pos rfl, h1]; exact ⟨rfl, h2⟩
    · right; unfold getOutputsHash; rw [if_pos rfl, h1]; exact ⟨⟨_, rfl⟩, h2⟩
  have hlt : n < UInt32.ofNat o.Outputs.len ↔ n.toNat < (σ.refs o.Outputs).length := by
    rw [UInt32.lt_iff_toNat_lt, UInt32.toNat_ofNat', ← hl2, Nat.mod_eq_of_lt (by omega)]
  have hOne : n < UInt32.ofNat o.Outputs.len →
      (getOutputsHash H σ o (Transaction.int32OfUint32 n) = .panic ∧ ∃ r, (σ.refs o.Outputs)[n.toNat]? = some r ∧ badOutput σ r) ∨
      ((∃ b, getOutputsHash H σ o (Transaction.int32OfUint32 n) = .ok b) ∧ ¬∃ r, (σ.refs o.Outputs)[n.toNat]? = some r ∧ badOutput σ r) := by
    intro h
    have hn := hlt.1 h
    rw [int32_small (by omega)]
    unfold getOutputsHash
    rw [if_neg (by omega), if_neg (by omega)]
    have hr : (σ.refs o.Outputs)[n.toNat]? = some (σ.refs o.Outputs)[n.toNat] := List.getElem?_eq_getElem hn
    rw [Int.toNat_natCast, index_some hr, Res.ok_bind, hr]
    rcases outputToBytes_total v (v.outputRefs o hm _ (mem_get hr)) with ⟨h1, h2⟩ | ⟨⟨b, h1⟩, h2⟩
    · left; rw [h1]; exact ⟨rfl, _, rfl, h2⟩
    · right; rw [h1]; exact ⟨⟨_, rfl⟩, fun ⟨r, e, hb⟩ => h2 (by cases e; exact hb)⟩
  have hNone : ¬n < UInt32.ofNat o.Outputs.len → ¬∃ r, (σ.refs o.Outputs)[n.toNat]? = some r ∧ badOutput σ r := by
    rintro h ⟨r, hr, -⟩
    exact h (hlt.2 (List.getElem?_eq_some_iff.1 hr).1)
  simp only [GetInputSignatureHash, Store.tx, index_some ho, Res.ok_bind, index_some hk, hinp, if_neg hid, hk2, hscr']
  have hSN : sighash.Single ≠ sighash.None := by decide
  by_cases c1 : f &&& sighash.AnyOneCanPay = 0
  · simp only [c1, if_true, true_and]
    rcases hPrev with ⟨h1, h2⟩ | ⟨⟨b1, h1⟩, h2⟩
    · rw [h1]; exact ⟨fun _ => Or.inl h2, fun _ => rfl⟩
    · rcases hSeq with ⟨-, h3⟩ | ⟨⟨b2, h3⟩, -⟩
      · exact absurd h3 h2
      rw [h1, h3]
      simp only [Res.ok_bind, h2, false_or]
      by_cases c2 : f &&& 31 = sighash.Single
      · simp only [c2, ne_eq, not_true_eq_false, false_and, if_false, true_and, false_or]
        by_cases c3 : n < UInt32.ofNat o.Outputs.len
        · rw [if_pos c3]
          rcases hOne c3 with ⟨k1, k2⟩ | ⟨⟨b, k1⟩, k2⟩
          · rw [k1]; exact ⟨fun _ => k2, fun _ => rfl⟩
          · rw [k1]; exact ⟨fun h => (by cases h), fun h => absurd h k2⟩
        · rw [if_neg c3]
          exact ⟨fun h => (by cases h), fun h => absurd h (hNone c3)⟩
      · by_cases c3 : f &&& 31 = sighash.None
        · simp only [c3, ne_eq, not_true_eq_false, and_false, false_and, if_false, hSN.symm, false_or]
          exact ⟨fun h => (by cases h), fun h => h.elim⟩
        · simp only [c2, c3, ne_eq, not_false_eq_true, and_self, if_true, true_and, false_and, or_false]
          rcases hOut with ⟨k1, k2⟩ | ⟨⟨b, k1⟩, k2⟩
          · rw [k1]; exact ⟨fun _ => k2, fun _ => rfl⟩
          · rw [k1]; exact ⟨fun h => (by cases h), fun ⟨r, hr, hb⟩ => absurd hb (k2 r hr)⟩
  · simp only [c1, if_false, false_and, false_or]
    by_cases c2 : f &&& 31 = sighash.Single
    · simp only [c2, ne_eq, not_true_eq_false, false_and, if_false, true_and, false_or]
      by_cases c3 : n < UInt32.ofNat o.Outputs.len
      · rw [if_pos c3]
        rcases hOne c3 with ⟨k1, k2⟩ | ⟨⟨b, k1⟩, k2⟩
        · rw [k1]; exact ⟨fun _ => k2, fun _ => rfl⟩
        · rw [k1]; exact ⟨fun h => (by cases h), fun h => absurd h k2⟩
      · rw [if_neg c3]
        exact ⟨fun h => (by cases h), fun h => absurd h (hNone c3)⟩
    · by_cases c3 : f &&& 31 = sighash.None
      · simp only [c3, ne_eq, not_true_eq_false, and_false, false_and, if_false, hSN.symm, false_or]
        exact ⟨fun h => (by cases h), fun h => h.elim⟩
      · simp only [c2, c3, ne_eq, not_false_eq_true, and_self, if_true, true_and, false_and, or_false]
        rcases hOut with ⟨k1, k2⟩ | ⟨⟨b, k1⟩, k2⟩
        · rw [k1]; exact ⟨fun _ => k2, fun _ => rfl⟩
        · rw [k1]; exact ⟨fun h => (by cases h), fun ⟨r, hr, hb⟩ => absurd hb (k2 r hr)⟩

example : ToBytes exNil 0 = .panic ∧ ToBytes exNil 1 = .panic ∧ ToBytes exNil 2 ≠ .panic := by
  refine ⟨(C79_toBytes exNil exNil_valid 0 _ rfl 0 none).2.1.2 (Or.inl (by decide)), (C79_toBytes exNil exNil_valid 1 _ rfl 0 none).2.1.2 (Or.inr ⟨none, by decide, Or.inl rfl⟩), by decide⟩

/-- The digest of input 0 of transaction 0 (whose other input is nil) panics with ALL and not with ANYONECANPAY. -/
example : GetInputSignatureHash toyH exNil 0 0 sighash.AllForkID = .panic ∧ GetInputSignatureHash toyH exNil 0 0 (sighash.AllForkID ||| sighash.AnyOneCanPay) ≠ .panic := by
  constructor
  · rw [C79_digest toyH exNil exNil_valid 0 _ rfl 0 _ 0 _ rfl rfl (by decide) (by decide) (by decide)]
    exact Or.inl ⟨by decide, by decide⟩
  · rw [Ne, C79_digest toyH exNil exNil_valid 0 _ rfl 0 _ 0 _ rfl rfl (by decide) (by decide) (by decide)]
    rintro (⟨h, -⟩ | ⟨-, -, r, hr, hb⟩ | ⟨h, -⟩)
    · exact absurd h (by decide)
    · have : r = some 1 := by simpa [exNil, Store.refs] using hr
      subst this
      rcases hb with h | ⟨k, o, e, ho, hl⟩
      · cases h
      · cases e; cases ho; cases hl
    · exact absurd h (by decide)

end Verif.Obj
