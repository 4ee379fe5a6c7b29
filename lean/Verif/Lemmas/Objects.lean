import Verif.Spec.Objects
import Verif.Lemmas.Basic
/-!
# Lemmas about the object store
-/
namespace Verif.Obj
open Verif

theorem index_ok {α : Type} {l : List α} {i : Nat} {a : α} : index l i = .ok a ↔ l[i]? = some a := by
  unfold index; split <;> simp_all

theorem index_some {α : Type} {l : List α} {i : Nat} {a : α} (h : l[i]? = some a) : index l i = .ok a := index_ok.2 h

theorem index_none {α : Type} {l : List α} {i : Nat} (h : l[i]? = none) : index l i = .panic := by
  unfold index; rw [h]

theorem refs_length {σ : Store} {s : RefSlice} (w : s.WF σ) : (σ.refs s).length = s.len := by
  obtain ⟨hl, hc⟩ := w
  unfold Store.refs
  rcases hc with hc | ⟨a, ha, hc⟩
  · rw [List.length_take]; omega
  · rw [List.length_take, List.getD_eq_getElem?_getD, ha]
    simp only [Option.getD_some]; omega

theorem seesScript_some {σ : Store} {k : Nat} {b : Option Bytes} (h : seesScript σ (some k) b) : ∃ s, b = some s ∧ σ.scripts[k]? = some s := by
  obtain ⟨h1, h2⟩ := h
  cases b with
  | none => simp at h1
  | some s => exact ⟨s, rfl, h2⟩

theorem inputToBytes_eq {σ : Store} {p : Ref} {i : Input} (h : seesInput σ p i) (clear : Bool) : inputToBytes σ clear p = .ok (i.ToBytes clear) := by
  obtain ⟨k, o, rfl, ho, h1, h2, -, -, h5, h6⟩ := h
  unfold inputToBytes Input.ToBytes
  simp only [Store.input, index_some ho, Res.ok_bind]
  rw [← h1, ← h2, ← h6]
  cases clear with
  | true => simp
  | false =>
    cases hu : o.UnlockingScript with
    | none =>
      rw [hu] at h5
      simp only [seesScript] at h5
      simp [h5]
    | some j =>
      rw [hu] at h5
      obtain ⟨s, e, hs⟩ := seesScript_some h5
      simp [e, Store.script, index_some hs]

theorem outputToBytes_eq {σ : Store} {p : Ref} {o : Output} (h : seesOutput σ p o) : outputToBytes σ p = .ok o.ToBytes := by
  obtain ⟨k, b, rfl, hb, h1, h2⟩ := h
  cases hl : b.LockingScript with
  | none => rw [hl] at h2; simp [seesScript] at h2
  | some j =>
    rw [hl] at h2
    obtain ⟨s, e, hs⟩ := seesScript_some h2
    cases e
    simp [outputToBytes, Store.output, index_some hb, hl, Store.script, index_some hs, Output.ToBytes, h1]

theorem inputsHelper_eq {σ : Store} (idx : Int) (spk : Option Bytes) {ps : List Ref} {is : List Input} (h : List.Forall₂ (seesInput σ) ps is) :
    ∀ n, inputsHelper σ idx spk n ps = .ok (Transaction.inputsHelper idx spk n is) := by
  induction h with
  | nil => intro n; rfl
  | cons h _ ih =>
    intro n
    cases spk <;> simp [inputsHelper, Transaction.inputsHelper, inputToBytes_eq h, ih]

theorem concatMap_eq {f : Ref → Res Bytes} {α : Type} {R : Ref → α → Prop} {v : α → Bytes} (hf : ∀ p a, R p a → f p = .ok (v a)) {ps : List Ref} {as : List α}
    (h : List.Forall₂ R ps as) : concatMap f ps = .ok (as.flatMap v) := by
  induction h with
  | nil => rfl
  | cons h _ ih => simp [concatMap, hf _ _ h, ih]

theorem outputsConcat_eq {σ : Store} {ps : List Ref} {os : List Output} (h : List.Forall₂ (seesOutput σ) ps os) :
    concatMap (outputToBytes σ) ps = .ok (os.flatMap Output.ToBytes) :=
  concatMap_eq (R := seesOutput σ) (v := Output.ToBytes) (fun _ _ h => outputToBytes_eq h) h

theorem toBytesHelper_eq {σ : Store} {t : Nat} {T : Transaction} (h : Reads σ t T) (idx : Int) (spk : Option Bytes) :
    toBytesHelper σ t idx spk = .ok (T.toBytesHelper idx spk) := by
  obtain ⟨o, ho, w1, w2, hv, hl, hi, hos⟩ := h
  simp [toBytesHelper, Store.tx, index_some ho, inputsHelper_eq idx spk hi, outputsConcat_eq hos, Transaction.toBytesHelper, hv, hl,
    hi.length_eq, hos.length_eq]

theorem prevoutHash_eq (H : HashFns) {σ : Store} {o : TxObj} {T : Transaction} (hi : List.Forall₂ (seesInput σ) (σ.refs o.Inputs) T.Inputs) :
    getPrevoutHash H σ o = .ok (T.getPrevoutHash H) := by
  unfold getPrevoutHash
  rw [concatMap_eq (v := fun i : Input => ReverseBytes (hexDecodeIgnore i.PreviousTxID) ++ putUint32 i.PreviousTxOutIndex) _ hi]
  · rfl
  · rintro p a ⟨k, b, rfl, hb, h1, h2, -⟩
    simp [Store.input, index_some hb, h1, h2]

theorem sequenceHash_eq (H : HashFns) {σ : Store} {o : TxObj} {T : Transaction} (hi : List.Forall₂ (seesInput σ) (σ.refs o.Inputs) T.Inputs) :
    getSequenceHash H σ o = .ok (T.getSequenceHash H) := by
  unfold getSequenceHash
  rw [concatMap_eq (v := fun i : Input => putUint32 i.SequenceNumber) _ hi]
  · rfl
  · rintro p a ⟨k, b, rfl, hb, -, -, -, -, -, h6⟩
    simp [Store.input, index_some hb, h6]

theorem forall₂_getElem? {α β : Type} {R : α → β → Prop} {l : List α} {m : List β} (h : List.Forall₂ R l m) (n : Nat) :
    (l[n]? = none ∧ m[n]? = none) ∨ ∃ a b, l[n]? = some a ∧ m[n]? = some b ∧ R a b := by
  induction h generalizing n with
  | nil => left; simp
  | cons h _ ih =>
    cases n with
    | zero => right; exact ⟨_, _, rfl, rfl, h⟩
    | succ n => simpa using ih n

theorem outputsHash_eq (H : HashFns) {σ : Store} {o : TxObj} {T : Transaction} (hos : List.Forall₂ (seesOutput σ) (σ.refs o.Outputs) T.Outputs) (n : Int) :
    getOutputsHash H σ o n = T.getOutputsHash H n := by
  unfold getOutputsHash Transaction.getOutputsHash
  split
  · rw [outputsConcat_eq hos]; rfl
  · split
    · rfl
    · rcases forall₂_getElem? hos n.toNat with ⟨h1, h2⟩ | ⟨a, b, h1, h2, h3⟩
      · rw [index_none h1, index_none h2]; rfl
      · rw [index_some h1, index_some h2]
        simp only [Res.ok_bind, outputToBytes_eq h3]
        rfl

theorem signatureHash_eq (H : HashFns) {σ : Store} {t : Nat} {T : Transaction} (h : Reads σ t T) (n : UInt32) (f : UInt8) :
    GetInputSignatureHash H σ t n f = T.GetInputSignatureHash H n f := by
  obtain ⟨o, ho, w1, w2, hv, hl, hi, hos⟩ := h
  have hlen : o.Outputs.len = T.Outputs.length := by rw [← hos.length_eq, refs_length w2]
  unfold GetInputSignatureHash Transaction.GetInputSignatureHash
  simp only [Store.tx, index_some ho, Res.ok_bind]
  rcases forall₂_getElem? hi n.toNat with ⟨h1, h2⟩ | ⟨a, b, h1, h2, h3⟩
  · rw [index_none h1, index_none h2]; rfl
  rw [index_some h1, index_some h2]
  obtain ⟨k, i, rfl, hk, e1, e2, e3, e4, e5, e6⟩ := h3
  simp only [Res.ok_bind, Store.input, index_some hk, e1]
  split
  · rfl
  cases hp : i.PreviousTxScript with
  | none =>
    rw [hp] at e4
    simp only [seesScript] at e4
    rw [e4]
  | some j =>
    rw [hp] at e4
    obtain ⟨s, e, hs⟩ := seesScript_some e4
    simp only [e, Store.script, index_some hs, outputsHash_eq H hos, prevoutHash_eq H hi, sequenceHash_eq H hi, hlen, hv, hl, e2, e3, e6]
    by_cases c1 : f &&& sighash.AnyOneCanPay = 0 <;> by_cases c2 : f &&& 31 ≠ sighash.Single ∧ f &&& 31 ≠ sighash.None
    · simp only [if_pos c1, if_pos c2, if_pos (And.intro c1 c2), Res.ok_bind]
    · simp only [if_pos c1, if_neg c2, if_neg (fun h : _ ∧ _ => c2 h.2), Res.ok_bind]
    · simp only [if_neg c1, if_pos c2, if_neg (fun h : _ ∧ _ => c1 h.1), Res.ok_bind]
    · simp only [if_neg c1, if_neg c2, if_neg (fun h : _ ∧ _ => c2 h.2), Res.ok_bind]

end Verif.Obj
