import Verif.Props.Objects
/-!
# C80, C81: signing through the `Signer` interface, and slices shared by copied transactions
-/
namespace Verif.Obj
open Verif Verif.Props

/-! ## C80 -/

theorem setTx_reads {σ : Store} {bt u : Nat} {o : TxObj} {U : Transaction} (hu : u ≠ bt) (h : Reads σ u U) : Reads (σ.setTx bt o) u U := by
  obtain ⟨x, hx, r⟩ := h
  exact ⟨x, by simp only [Store.setTx]; rw [List.getElem?_set_ne (Ne.symm hu)]; exact hx, r⟩

theorem setTx_reads_self {σ : Store} {bt r : Nat} {o : TxObj} {R : Transaction} (hb : bt < σ.txs.length) (ho : σ.txs[r]? = some o) (h : Reads σ r R) : Reads (σ.setTx bt o) bt R := by
  obtain ⟨x, hx, q⟩ := h
  rw [ho] at hx; cases hx
  exact ⟨o, by simp only [Store.setTx]; rw [List.getElem?_set_self hb], q⟩

/-- What `*bt = *signedTx` does with the outcome of a signer. -/
def Outcome (bt : Nat) (call : Res (Store × Except String Ref)) (result : Res (Store × Except String Unit)) : Prop :=
  (call = .panic → result = .panic) ∧
  (∀ σ' e, call = .ok (σ', .error e) → result = .ok (σ', .error e)) ∧
  (∀ σ', call = .ok (σ', .ok none) → result = .panic) ∧
  ∀ (σ' : Store) (r : Nat), call = .ok (σ', .ok (some r)) → r < σ'.txs.length → bt < σ'.txs.length →
    ∃ σ'', result = .ok (σ'', .ok ()) ∧ (∀ R, Reads σ' r R → Reads σ'' bt R) ∧ (∀ u U, u ≠ bt → Reads σ' u U → Reads σ'' u U) ∧ σ''.txs[bt]? = σ'.txs[r]?

theorem assign_outcome (bt : Nat) (call : Res (Store × Except String Ref)) : Outcome bt call (call >>= assign bt) := by
  refine ⟨?_, ?_, ?_, ?_⟩
  · rintro rfl; rfl
  · rintro σ' e rfl; rfl
  · rintro σ' rfl; rfl
  · rintro σ' r rfl hr hb
    have ho : σ'.txs[r]? = some σ'.txs[r] := List.getElem?_eq_getElem hr
    have hx : σ'.tx (some r) = .ok σ'.txs[r] := index_some ho
    refine ⟨σ'.setTx bt σ'.txs[r], ?_, fun R h => setTx_reads_self hb ho h, fun u U hu h => setTx_reads hu h, ?_⟩
    · simp only [Res.ok_bind, assign, hx]; rfl
    · rw [ho]; simp only [Store.setTx]; rw [List.getElem?_set_self hb]

/-- C80: `Transaction.Sign` with any implementation of `Signer`: a panic of the signer panics, an error is passed on with the objects as the signer left them (`bt` is not assigned),
a nil result panics, and after a result `r` the transaction shows what `r` shows while every other transaction shows what the signer left. -/
theorem C80_sign (S : Signer) (σ : Store) (bt : Nat) (idx : UInt32) : Outcome bt (S.Sign idx bt σ) (Sign σ bt idx S) := assign_outcome bt _

/-- C80, the same for `Transaction.SignAuto`. -/
theorem C80_signAuto (S : Signer) (σ : Store) (bt : Nat) : Outcome bt (S.SignAuto bt σ) (SignAuto σ bt S) := assign_outcome bt _

/-- C80: whatever an `InternalSigner` call returns, it leaves the defaulted flag in the signer: a zero `SigHashFlag` reads as ALL|FORKID afterwards, even when signing failed.
No other signer changes. -/
theorem C80_flag (H : HashFns) (σ σ' : Store) (sg : Nat) (idx : UInt32) (bt : Nat) (x : Except String Ref) (h : InternalSign H σ sg idx bt = .ok (σ', x)) :
    ∃ a, σ.signers[sg]? = some a ∧ σ'.signers = σ.signers.set sg { a with SigHashFlag := if a.SigHashFlag = 0 then 0x41 else a.SigHashFlag } := by
  unfold InternalSign at h
  obtain ⟨a, ha, h⟩ := Res.bind_eq_ok.1 h
  refine ⟨a, index_ok.1 ha, ?_⟩
  dsimp only at h
  split at h
  · cases h
  · cases h; rfl
  · split at h
    · cases h
    · cases h; rfl
    · split at h
      · cases h
      · cases h; rfl
      · rename_i hap
        cases h
        obtain ⟨k, i, -, rfl⟩ := C78_apply_only _ _ _ _ _ hap
        rfl

/-- A signer that returns another transaction of the store (`exTwice` holds two). -/
def exOther : Signer := ⟨fun _ _ σ => .ok (σ, .ok (some 1)), fun _ σ => .ok (σ, .ok (some 1))⟩

example : ∃ σ'', Sign exTwice 0 0 exOther = .ok (σ'', .ok ()) ∧ Reads σ'' 0 { Version := 2, Inputs := [exTwiceA, exTwiceB, exTwiceA], Outputs := [], Locktime := 0 } := by
  obtain ⟨σ'', h1, h2, -⟩ := (C80_sign exOther exTwice 0 0).2.2.2 exTwice 1 rfl (by decide) (by decide)
  exact ⟨σ'', h1, h2 _ exTwice_reads⟩

/-- A failing signer: the flag is stored all the same. -/
example : ∃ σ' e, InternalSign toyH { exTwice with signers := [⟨fun _ => .err "no key", [2], 0⟩] } 0 0 0 = .ok (σ', .error e) ∧ σ'.signers[0]?.map (·.SigHashFlag) = some 0x41 := by
  have h : ∃ σ' e, InternalSign toyH { exTwice with signers := [⟨fun _ => .err "no key", [2], 0⟩] } 0 0 0 = .ok (σ', .error e) := ⟨_, _, rfl⟩
  obtain ⟨σ', e, h⟩ := h
  obtain ⟨a, ha, hs⟩ := C80_flag toyH _ _ _ _ _ _ h
  refine ⟨σ', e, h, ?_⟩
  rw [hs]
  cases ha
  rfl

/-! ## C81 -/

theorem refs_setTx (σ : Store) (k : Nat) (o : TxObj) (s : RefSlice) : (σ.setTx k o).refs s = σ.refs s := rfl

theorem append_twice (g : Nat → Nat) {σ : Store} {s : RefSlice} (w : s.WF σ) (x y : Ref) (k : Nat) (o : TxObj) :
    (((σ.append g s x).1.setTx k o).append g s y).1.refs (σ.append g s x).2 = σ.refs s ++ [if s.len < s.cap then y else x] := by
  have hl := refs_length w
  obtain ⟨h1, h2⟩ := w
  by_cases c : s.len < s.cap
  · rw [if_pos c]
    obtain ⟨a, ha, hc⟩ := h2.resolve_left (by omega)
    have ha' : σ.arrays.getD s.arr [] = a := by rw [List.getD_eq_getElem?_getD, ha]; rfl
    have hlt : s.arr < σ.arrays.length := (List.getElem?_eq_some_iff.1 ha).1
    unfold Store.append
    rw [if_pos c, if_pos c]
    simp only [Store.refs, Store.setTx, ha']
    rw [List.getD_eq_getElem?_getD, List.set_set, List.getElem?_set_self hlt]
    have e1 : ((σ.arrays.set s.arr (a.set s.len x)).getD s.arr []) = a.set s.len x := by
      rw [List.getD_eq_getElem?_getD, List.getElem?_set_self hlt]; rfl
    rw [e1, List.set_set]
    simp only [Option.getD_some]
    rw [List.take_set, List.take_add_one, List.getElem?_eq_getElem (by omega)]
    simp only [Option.toList_some]
    rw [List.set_append_right _ _ (by rw [List.length_take]; omega), List.length_take, Nat.min_eq_left (by omega)]
    simp
  · rw [if_neg c]
    unfold Store.append
    rw [if_neg c, if_neg c]
    simp only [Store.refs, Store.setTx]
    rw [List.getD_eq_getElem?_getD, List.getElem?_append_left (by simp), List.getElem?_concat_length]
    simp only [Option.getD_some]
    have hl' : (List.take s.len (σ.arrays.getD s.arr [])).length = s.len := hl
    generalize List.take s.len (σ.arrays.getD s.arr []) = l at hl'
    rw [List.take_append_of_le_length (by simp [hl']), List.take_of_length_le (by simp [hl'])]

/-- C81: two transactions with the same `Inputs` header (`*b = *a`): an input appended to the first and then one to the second. If the array has room left the second overwrites
the first one's new entry, else both keep their own. -/
theorem C81_inputs (g : Nat → Nat) (σ : Store) (t u : Nat) (ot ou : TxObj) (ht : σ.txs[t]? = some ot) (hu : σ.txs[u]? = some ou) (hne : t ≠ u) (hs : ot.Inputs = ou.Inputs)
    (w : ot.Inputs.WF σ) (x y : Ref) :
    ∃ σ1 σ2 o2, AddInput g σ t x = .ok σ1 ∧ AddInput g σ1 u y = .ok σ2 ∧ σ2.txs[t]? = some o2 ∧
      σ2.refs o2.Inputs = σ.refs ot.Inputs ++ [if ot.Inputs.len < ot.Inputs.cap then y else x] := by
  have htl := (List.getElem?_eq_some_iff.1 ht).1
  obtain ⟨-, -, -, f4, -⟩ := append_fields g σ ot.Inputs x
  refine ⟨(σ.append g ot.Inputs x).1.setTx t { ot with Inputs := (σ.append g ot.Inputs x).2 },
    (((σ.append g ot.Inputs x).1.setTx t { ot with Inputs := (σ.append g ot.Inputs x).2 }).append g ot.Inputs y).1.setTx u
      { ou with Inputs := (((σ.append g ot.Inputs x).1.setTx t { ot with Inputs := (σ.append g ot.Inputs x).2 }).append g ot.Inputs y).2 },
    { ot with Inputs := (σ.append g ot.Inputs x).2 },
    by simp only [AddInput, Store.tx, index_some ht, Res.ok_bind]; rfl, ?_, ?_, append_twice g w x y t { ot with Inputs := (σ.append g ot.Inputs x).2 }⟩
  · have hu1 : ((σ.append g ot.Inputs x).1.setTx t { ot with Inputs := (σ.append g ot.Inputs x).2 }).txs[u]? = some ou := by
      simp only [Store.setTx]; rw [List.getElem?_set_ne hne, f4]; exact hu
    simp only [AddInput, Store.tx, index_some hu1, Res.ok_bind, ← hs]
    rfl
  · obtain ⟨-, -, -, f4', -⟩ := append_fields g ((σ.append g ot.Inputs x).1.setTx t { ot with Inputs := (σ.append g ot.Inputs x).2 }) ot.Inputs y
    simp only [Store.setTx] at f4' ⊢
    rw [List.getElem?_set_ne (Ne.symm hne), f4', List.getElem?_set_self (by rw [f4]; exact htl)]

/-- C81, the same for outputs. -/
theorem C81_outputs (g : Nat → Nat) (σ : Store) (t u : Nat) (ot ou : TxObj) (ht : σ.txs[t]? = some ot) (hu : σ.txs[u]? = some ou) (hne : t ≠ u) (hs : ot.Outputs = ou.Outputs)
    (w : ot.Outputs.WF σ) (x y : Ref) :
    ∃ σ1 σ2 o2, AddOutput g σ t x = .ok σ1 ∧ AddOutput g σ1 u y = .ok σ2 ∧ σ2.txs[t]? = some o2 ∧
      σ2.refs o2.Outputs = σ.refs ot.Outputs ++ [if ot.Outputs.len < ot.Outputs.cap then y else x] := by
  have htl := (List.getElem?_eq_some_iff.1 ht).1
  obtain ⟨-, -, -, f4, -⟩ := append_fields g σ ot.Outputs x
  refine ⟨(σ.append g ot.Outputs x).1.setTx t { ot with Outputs := (σ.append g ot.Outputs x).2 },
    (((σ.append g ot.Outputs x).1.setTx t { ot with Outputs := (σ.append g ot.Outputs x).2 }).append g ot.Outputs y).1.setTx u
      { ou with Outputs := (((σ.append g ot.Outputs x).1.setTx t { ot with Outputs := (σ.append g ot.Outputs x).2 }).append g ot.Outputs y).2 },
    { ot with Outputs := (σ.append g ot.Outputs x).2 },
    by simp only [AddOutput, Store.tx, index_some ht, Res.ok_bind]; rfl, ?_, ?_, append_twice g w x y t { ot with Outputs := (σ.append g ot.Outputs x).2 }⟩
  · have hu1 : ((σ.append g ot.Outputs x).1.setTx t { ot with Outputs := (σ.append g ot.Outputs x).2 }).txs[u]? = some ou := by
      simp only [Store.setTx]; rw [List.getElem?_set_ne hne, f4]; exact hu
    simp only [AddOutput, Store.tx, index_some hu1, Res.ok_bind, ← hs]
    rfl
  · obtain ⟨-, -, -, f4', -⟩ := append_fields g ((σ.append g ot.Outputs x).1.setTx t { ot with Outputs := (σ.append g ot.Outputs x).2 }) ot.Outputs y
    simp only [Store.setTx] at f4' ⊢
    rw [List.getElem?_set_ne (Ne.symm hne), f4', List.getElem?_set_self (by rw [f4]; exact htl)]

/-- C81: `Transaction.Sign` makes such a copy. With a signer that returns another transaction `r` whose input array has room, the caller's next input is overwritten by the next
input of `r`: the claim that a signed transaction is its own object is violated. -/
theorem C81_sign_violated (S : Signer) (g : Nat → Nat) (σ σ' : Store) (bt r : Nat) (idx : UInt32) (o : TxObj) (hS : S.Sign idx bt σ = .ok (σ', .ok (some r)))
    (ho : σ'.txs[r]? = some o) (hb : bt < σ'.txs.length) (hne : bt ≠ r) (w : o.Inputs.WF σ') (room : o.Inputs.len < o.Inputs.cap) (x y : Ref) :
    ∃ σ'' σ1 σ2 o2, Sign σ bt idx S = .ok (σ'', .ok ()) ∧ AddInput g σ'' bt x = .ok σ1 ∧ AddInput g σ1 r y = .ok σ2 ∧ σ2.txs[bt]? = some o2 ∧
      σ2.refs o2.Inputs = σ'.refs o.Inputs ++ [y] := by
  have hx : σ'.tx (some r) = .ok o := index_some ho
  have e : Sign σ bt idx S = .ok (σ'.setTx bt o, .ok ()) := by
    unfold Sign; rw [hS]; simp only [Res.ok_bind, assign, hx]; rfl
  have hbt : (σ'.setTx bt o).txs[bt]? = some o := by simp only [Store.setTx]; rw [List.getElem?_set_self hb]
  have hrr : (σ'.setTx bt o).txs[r]? = some o := by simp only [Store.setTx]; rw [List.getElem?_set_ne hne]; exact ho
  obtain ⟨σ1, σ2, o2, h1, h2, h3, h4⟩ := C81_inputs g _ bt r o o hbt hrr hne rfl w x y
  rw [if_pos room] at h4
  exact ⟨_, σ1, σ2, o2, e, h1, h2, h3, h4⟩

example : ∃ σ'' σ1 σ2 o2, Sign exTwice 0 0 exOther = .ok (σ'', .ok ()) ∧ AddInput id σ'' 0 (some 0) = .ok σ1 ∧ AddInput id σ1 1 (some 1) = .ok σ2 ∧ σ2.txs[0]? = some o2 ∧
    σ2.refs o2.Inputs = [some 0, some 1, some 0, some 1] :=
  C81_sign_violated exOther id exTwice exTwice 0 1 0 _ rfl rfl (by decide) (by decide) ⟨by decide, Or.inr ⟨_, rfl, by decide⟩⟩ (by decide) (some 0) (some 1)

end Verif.Obj
