import Verif.Lemmas.Objects
/-!
# Programs whose transactions share nothing: the store simulates values
-/
namespace Verif.Obj
open Verif

/-- Inputs (`false`) or outputs (`true`). -/
def TxObj.slice (t : TxObj) : Bool → RefSlice
  | false => t.Inputs
  | true => t.Outputs

def TxObj.setSlice (t : TxObj) (s : RefSlice) : Bool → TxObj
  | false => { t with Inputs := s }
  | true => { t with Outputs := s }

/-- No array is shared by two slices, no input object is in two places. -/
structure Sep (σ : Store) : Prop where
  wf : ∀ (k : Nat) (t : TxObj) b, σ.txs[k]? = some t → (t.slice b).WF σ
  arrays : ∀ (k : Nat) (t : TxObj) b (k' : Nat) (t' : TxObj) b', σ.txs[k]? = some t → σ.txs[k']? = some t' → 0 < (t.slice b).cap → 0 < (t'.slice b').cap →
    (t.slice b).arr = (t'.slice b').arr → k = k' ∧ b = b'
  inputs : ∀ (k : Nat) (t : TxObj) (j k' : Nat) (t' : TxObj) (j' n : Nat), σ.txs[k]? = some t → σ.txs[k']? = some t' → (σ.refs t.Inputs)[j]? = some (some n) →
    (σ.refs t'.Inputs)[j']? = some (some n) → k = k' ∧ j = j'

/-! ## New objects -/

/-- Objects were added, nothing else changed. -/
structure Ext (σ σ' : Store) : Prop where
  scripts : σ.scripts <+: σ'.scripts
  inputs : σ.inputs <+: σ'.inputs
  outputs : σ.outputs <+: σ'.outputs
  arrays : σ'.arrays = σ.arrays
  txs : σ'.txs = σ.txs
  signers : σ'.signers = σ.signers

theorem Ext.trans {a b c : Store} (h : Ext a b) (k : Ext b c) : Ext a c :=
  ⟨h.1.trans k.1, h.2.trans k.2, h.3.trans k.3, k.4.trans h.4, k.5.trans h.5, k.6.trans h.6⟩

theorem Ext.refl (a : Store) : Ext a a := ⟨List.prefix_rfl, List.prefix_rfl, List.prefix_rfl, rfl, rfl, rfl⟩

theorem prefix_getElem? {α : Type} {l m : List α} (h : l <+: m) {k : Nat} {a : α} (e : l[k]? = some a) : m[k]? = some a := by
  obtain ⟨r, rfl⟩ := h
  rw [List.getElem?_append_left, e]
  exact (List.getElem?_eq_some_iff.1 e).1

theorem seesScript_mono {σ σ' : Store} (h : σ.scripts <+: σ'.scripts) {p : Ref} {b : Option Bytes} (s : seesScript σ p b) : seesScript σ' p b := by
  cases p with
  | none => exact s
  | some k =>
    obtain ⟨v, rfl, hv⟩ := seesScript_some s
    exact ⟨rfl, prefix_getElem? h hv⟩

theorem seesInput_mono {σ σ' : Store} (h : σ.scripts <+: σ'.scripts) (hi : σ.inputs <+: σ'.inputs) {p : Ref} {i : Input} (s : seesInput σ p i) :
    seesInput σ' p i := by
  obtain ⟨k, o, e, ho, h1, h2, h3, h4, h5, h6⟩ := s
  exact ⟨k, o, e, prefix_getElem? hi ho, h1, h2, h3, seesScript_mono h h4, seesScript_mono h h5, h6⟩

theorem seesOutput_mono {σ σ' : Store} (h : σ.scripts <+: σ'.scripts) (hi : σ.outputs <+: σ'.outputs) {p : Ref} {o : Output} (s : seesOutput σ p o) :
    seesOutput σ' p o := by
  obtain ⟨k, b, e, ho, h1, h2⟩ := s
  exact ⟨k, b, e, prefix_getElem? hi ho, h1, seesScript_mono h h2⟩

theorem Ext.refs {σ σ' : Store} (h : Ext σ σ') (s : RefSlice) : σ'.refs s = σ.refs s := by unfold Store.refs; rw [h.arrays]

theorem Ext.wf {σ σ' : Store} (h : Ext σ σ') {s : RefSlice} (w : s.WF σ) : s.WF σ' := by unfold RefSlice.WF; rw [h.arrays]; exact w

theorem Ext.reads {σ σ' : Store} (h : Ext σ σ') {t : Nat} {T : Transaction} (r : Reads σ t T) : Reads σ' t T := by
  obtain ⟨o, ho, w1, w2, hv, hl, hi, hos⟩ := r
  refine ⟨o, by rw [h.txs]; exact ho, h.wf w1, h.wf w2, hv, hl, ?_, ?_⟩
  · rw [h.refs]; exact hi.imp fun _ _ s => seesInput_mono h.scripts h.inputs s
  · rw [h.refs]; exact hos.imp fun _ _ s => seesOutput_mono h.scripts h.outputs s

theorem Ext.sep {σ σ' : Store} (h : Ext σ σ') (s : Sep σ) : Sep σ' := by
  refine ⟨?_, ?_, ?_⟩
  · intro k t b e
    rw [h.txs] at e
    exact h.wf (s.wf k t b e)
  · intro k t b k' t' b' e e'
    rw [h.txs] at e e'
    exact s.arrays k t b k' t' b' e e'
  · intro k t j k' t' j' n e e' r r'
    rw [h.txs] at e e'
    rw [h.refs] at r r'
    exact s.inputs k t j k' t' j' n e e' r r'

theorem ext_newScript (σ : Store) (b : Bytes) : Ext σ (σ.newScript b).1 :=
  ⟨List.prefix_append _ _, List.prefix_rfl, List.prefix_rfl, rfl, rfl, rfl⟩

theorem sees_newScript (σ : Store) (b : Bytes) : seesScript (σ.newScript b).1 (σ.newScript b).2 (some b) := by
  refine ⟨rfl, ?_⟩
  simp [Store.newScript]

theorem ext_newScript? (σ : Store) (b : Option Bytes) : Ext σ (newScript? σ b).1 := by
  cases b with
  | none => exact Ext.refl σ
  | some b => exact ext_newScript σ b

theorem sees_newScript? (σ : Store) (b : Option Bytes) : seesScript (newScript? σ b).1 (newScript? σ b).2 b := by
  cases b with
  | none => exact rfl
  | some b => exact sees_newScript σ b

theorem newScript?_inputs (σ : Store) (b : Option Bytes) : (newScript? σ b).1.inputs = σ.inputs := by cases b <;> rfl

theorem ext_mkInput (σ : Store) (i : Input) : Ext σ (mkInput σ i).1 := by
  refine (ext_newScript? σ i.PreviousTxScript).trans ((ext_newScript? _ i.UnlockingScript).trans ?_)
  exact ⟨List.prefix_rfl, List.prefix_append _ _, List.prefix_rfl, rfl, rfl, rfl⟩

theorem mkInput_ref (σ : Store) (i : Input) : (mkInput σ i).2 = some σ.inputs.length := by
  simp only [mkInput, Store.newInput, newScript?_inputs]

theorem sees_mkInput (σ : Store) (i : Input) : seesInput (mkInput σ i).1 (mkInput σ i).2 i := by
  rw [mkInput_ref]
  have e1 : Ext (newScript? σ i.PreviousTxScript).1 (mkInput σ i).1 := (ext_newScript? _ i.UnlockingScript).trans
    ⟨List.prefix_rfl, List.prefix_append _ _, List.prefix_rfl, rfl, rfl, rfl⟩
  have e2 : Ext (newScript? (newScript? σ i.PreviousTxScript).1 i.UnlockingScript).1 (mkInput σ i).1 :=
    ⟨List.prefix_rfl, List.prefix_append _ _, List.prefix_rfl, rfl, rfl, rfl⟩
  refine ⟨_, InputObj.mk i.PreviousTxID i.PreviousTxOutIndex i.PreviousTxSatoshis (newScript? σ i.PreviousTxScript).2
    (newScript? (newScript? σ i.PreviousTxScript).1 i.UnlockingScript).2 i.SequenceNumber, rfl, ?_, rfl, rfl, rfl, ?_, ?_, rfl⟩
  · simp only [mkInput, Store.newInput, newScript?_inputs]
    simp
  · exact seesScript_mono e1.scripts (sees_newScript? _ _)
  · exact seesScript_mono e2.scripts (sees_newScript? _ _)

theorem ext_mkOutput (σ : Store) (o : Output) : Ext σ (mkOutput σ o).1 :=
  (ext_newScript σ o.LockingScript).trans ⟨List.prefix_rfl, List.prefix_rfl, List.prefix_append _ _, rfl, rfl, rfl⟩

theorem sees_mkOutput (σ : Store) (o : Output) : seesOutput (mkOutput σ o).1 (mkOutput σ o).2 o := by
  have e : Ext (σ.newScript o.LockingScript).1 (mkOutput σ o).1 := ⟨List.prefix_rfl, List.prefix_rfl, List.prefix_append _ _, rfl, rfl, rfl⟩
  refine ⟨_, { Satoshis := o.Satoshis, LockingScript := (σ.newScript o.LockingScript).2 }, rfl, ?_, rfl, ?_⟩
  · simp [mkOutput, Store.newOutput, Store.newScript]
  · exact seesScript_mono e.scripts (sees_newScript _ _)

/-! ## Appending a pointer -/

theorem append_fields (g : Nat → Nat) (σ : Store) (s : RefSlice) (r : Ref) :
    (σ.append g s r).1.scripts = σ.scripts ∧ (σ.append g s r).1.inputs = σ.inputs ∧ (σ.append g s r).1.outputs = σ.outputs ∧
    (σ.append g s r).1.txs = σ.txs ∧ (σ.append g s r).1.signers = σ.signers := by
  unfold Store.append; split <;> exact ⟨rfl, rfl, rfl, rfl, rfl⟩

theorem append_refs (g : Nat → Nat) {σ : Store} {s : RefSlice} (w : s.WF σ) (r : Ref) :
    (σ.append g s r).1.refs (σ.append g s r).2 = σ.refs s ++ [r] := by
  have hl := refs_length w
  unfold Store.append
  split
  · rename_i h
    obtain ⟨-, hc⟩ := w
    rcases hc with hc | ⟨a, ha, hc⟩
    · omega
    · have hb : s.arr < σ.arrays.length := (List.getElem?_eq_some_iff.1 ha).1
      simp only [Store.refs, List.getD_eq_getElem?_getD, ha, Option.getD_some, List.getElem?_set_self hb]
      rw [List.take_add_one, List.getElem?_set_self (by omega), List.take_set_of_le (by omega)]
      rfl
  · simp only [Store.refs, List.getD_eq_getElem?_getD, List.getElem?_append_right (Nat.le_refl _), Nat.sub_self, List.getElem?_cons_zero, Option.getD_some]
    rw [List.append_assoc, List.take_append, List.take_of_length_le (by simp)]
    have : s.len + 1 - (List.take s.len (σ.arrays[s.arr]?.getD [])).length = 1 := by
      have := hl; unfold Store.refs at this; simp at this ⊢; omega
    rw [this]; rfl

theorem append_other (g : Nat → Nat) {σ : Store} {s s2 : RefSlice} (w2 : s2.WF σ) (hd : 0 < s.cap → 0 < s2.cap → s.arr ≠ s2.arr) (r : Ref) :
    (σ.append g s r).1.refs s2 = σ.refs s2 := by
  obtain ⟨hl2, hc2⟩ := w2
  rcases hc2 with hc2 | ⟨a, ha, hc2⟩
  · have : s2.len = 0 := by omega
    simp [Store.refs, this]
  · by_cases hz : s2.cap = 0
    · have : s2.len = 0 := by omega
      simp [Store.refs, this]
    have hb : s2.arr < σ.arrays.length := (List.getElem?_eq_some_iff.1 ha).1
    unfold Store.append
    split
    · simp only [Store.refs, List.getD_eq_getElem?_getD]
      rw [List.getElem?_set_ne (hd (by omega) (by omega))]
    · simp only [Store.refs, List.getD_eq_getElem?_getD]
      rw [List.getElem?_append_left hb]

theorem append_wf_other (g : Nat → Nat) {σ : Store} (s : RefSlice) {s2 : RefSlice} (w2 : s2.WF σ) (r : Ref) : s2.WF (σ.append g s r).1 := by
  obtain ⟨hl2, hc2⟩ := w2
  refine ⟨hl2, ?_⟩
  rcases hc2 with hc2 | ⟨a, ha, hc2⟩
  · exact Or.inl hc2
  · right
    have hb : s2.arr < σ.arrays.length := (List.getElem?_eq_some_iff.1 ha).1
    unfold Store.append
    split
    · by_cases e : s.arr = s2.arr
      · refine ⟨a.set s.len r, ?_, by rw [List.length_set]; exact hc2⟩
        simp only [e, List.getElem?_set_self hb, List.getD_eq_getElem?_getD, ha, Option.getD_some]
      · refine ⟨a, ?_, hc2⟩
        simp only [List.getElem?_set_ne e, ha]
    · exact ⟨a, by simp only [List.getElem?_append_left hb, ha], hc2⟩

theorem append_wf (g : Nat → Nat) {σ : Store} {s : RefSlice} (w : s.WF σ) (r : Ref) : (σ.append g s r).2.WF (σ.append g s r).1 := by
  have hl := refs_length w
  unfold Store.append
  split
  · rename_i h
    obtain ⟨-, hc⟩ := w
    rcases hc with hc | ⟨a, ha, hc⟩
    · omega
    · have hb : s.arr < σ.arrays.length := (List.getElem?_eq_some_iff.1 ha).1
      refine ⟨by simp only; omega, Or.inr ⟨a.set s.len r, ?_, by rw [List.length_set]; exact hc⟩⟩
      simp only [List.getElem?_set_self hb, List.getD_eq_getElem?_getD, ha, Option.getD_some]
  · refine ⟨by simp only; omega, Or.inr ⟨_, by simp only [List.getElem?_append_right (Nat.le_refl _), Nat.sub_self, List.getElem?_cons_zero]; rfl, ?_⟩⟩
    simp only [List.length_append, hl, List.length_replicate, List.length_cons, List.length_nil]; omega

/-- The array of the result of an append is the old one, or new. -/
theorem append_arr (g : Nat → Nat) (σ : Store) (s : RefSlice) (r : Ref) :
    (σ.append g s r).2.arr = s.arr ∧ 0 < s.cap ∨ (σ.append g s r).2.arr = σ.arrays.length := by
  unfold Store.append
  split
  · left; exact ⟨rfl, by omega⟩
  · right; rfl

end Verif.Obj
