import Verif.Lemmas.Objects2
/-!
# The simulation of value-level programs by the store
-/
namespace Verif.Obj
open Verif

/-- `p` was appended to side `b` of transaction `t`, nothing else is visible. -/
structure Pushed (σ : Store) (t : Nat) (o : TxObj) (b : Bool) (p : Ref) (σ' : Store) : Prop where
  scripts : σ'.scripts = σ.scripts
  inputs : σ'.inputs = σ.inputs
  outputs : σ'.outputs = σ.outputs
  signers : σ'.signers = σ.signers
  txs : ∃ s', σ'.txs = σ.txs.set t (o.setSlice s' b) ∧ σ'.refs s' = σ.refs (o.slice b) ++ [p]
  same : ∀ (k : Nat) (o2 : TxObj) b2, σ.txs[k]? = some o2 → (k ≠ t ∨ b2 ≠ b) → σ'.refs (o2.slice b2) = σ.refs (o2.slice b2)
  wf : ∀ (k : Nat) (u : TxObj) b, σ'.txs[k]? = some u → (u.slice b).WF σ'
  arrays : ∀ (k : Nat) (u : TxObj) b (k' : Nat) (u' : TxObj) b', σ'.txs[k]? = some u → σ'.txs[k']? = some u' → 0 < (u.slice b).cap → 0 < (u'.slice b').cap →
    (u.slice b).arr = (u'.slice b').arr → k = k' ∧ b = b'

theorem setSlice_slice (o : TxObj) (s : RefSlice) (b b2 : Bool) : (o.setSlice s b).slice b2 = if b2 = b then s else o.slice b2 := by
  cases b <;> cases b2 <;> rfl

theorem pushed (g : Nat → Nat) {σ : Store} (sp : Sep σ) {t : Nat} {o : TxObj} (ho : σ.txs[t]? = some o) (b : Bool) (p : Ref) :
    Pushed σ t o b p ((σ.append g (o.slice b) p).1.setTx t (o.setSlice (σ.append g (o.slice b) p).2 b)) := by
  obtain ⟨f1, f2, f3, f4, f5⟩ := append_fields g σ (o.slice b) p
  have wo := sp.wf t o b ho
  have ht : t < σ.txs.length := (List.getElem?_eq_some_iff.1 ho).1
  have hw : ∀ (k : Nat) (u : TxObj) b2, (σ.txs.set t (o.setSlice (σ.append g (o.slice b) p).2 b))[k]? = some u → (u.slice b2).WF (σ.append g (o.slice b) p).1 := by
    intro k u b2 hu
    by_cases e : t = k
    · subst e
      rw [List.getElem?_set_self ht] at hu
      cases hu
      rw [setSlice_slice]
      split
      · exact append_wf g wo p
      · exact append_wf_other g _ (sp.wf _ _ _ ho) p
    · rw [List.getElem?_set_ne e] at hu
      exact append_wf_other g _ (sp.wf _ _ _ hu) p
  -- every slice of the new store is an old one, with its array below the length, or the new one
  have old : ∀ (k : Nat) (u : TxObj) b2, (σ.txs.set t (o.setSlice (σ.append g (o.slice b) p).2 b))[k]? = some u → (k ≠ t ∨ b2 ≠ b) →
      ∃ u0, σ.txs[k]? = some u0 ∧ u.slice b2 = u0.slice b2 := by
    intro k u b2 hu hne
    by_cases e : t = k
    · subst e
      rw [List.getElem?_set_self ht] at hu
      cases hu
      refine ⟨o, ho, ?_⟩
      rw [setSlice_slice, if_neg]
      rcases hne with h | h
      · exact absurd rfl h
      · exact h
    · rw [List.getElem?_set_ne e] at hu
      exact ⟨u, hu, rfl⟩
  have oldarr : ∀ (k : Nat) (u : TxObj) b2, σ.txs[k]? = some u → 0 < (u.slice b2).cap → (u.slice b2).arr < σ.arrays.length := by
    intro k u b2 hu hc
    rcases (sp.wf k u b2 hu).2 with h | ⟨a, ha, -⟩
    · omega
    · exact (List.getElem?_eq_some_iff.1 ha).1
  have key : ∀ (k : Nat) (u : TxObj) b2, (σ.txs.set t (o.setSlice (σ.append g (o.slice b) p).2 b))[k]? = some u → (k ≠ t ∨ b2 ≠ b) → 0 < (u.slice b2).cap →
      (u.slice b2).arr ≠ (σ.append g (o.slice b) p).2.arr := by
    intro k u b2 hu hne hc he
    obtain ⟨u0, hu0, es⟩ := old k u b2 hu hne
    rw [es] at hc he
    rcases append_arr g σ (o.slice b) p with ⟨h1, h2⟩ | h1
    · rw [h1] at he
      have := sp.arrays k u0 b2 t o b hu0 ho hc h2 he
      rcases hne with h | h
      · exact h this.1
      · exact h this.2
    · have := oldarr k u0 b2 hu0 hc
      omega
  refine ⟨f1, f2, f3, f5, ⟨(σ.append g (o.slice b) p).2, by rw [← f4]; rfl, append_refs g wo p⟩, ?_, ?_, ?_⟩
  · intro k o2 b2 h2 hne
    refine append_other g (sp.wf k o2 b2 h2) ?_ p
    intro c1 c2 e
    have := sp.arrays t o b k o2 b2 ho h2 c1 c2 e
    rcases hne with h | h
    · exact h this.1.symm
    · exact h this.2.symm
  · intro k u b2 hu
    simp only [Store.setTx, f4] at hu
    exact hw k u b2 hu
  · intro k u b1 k' u' b2 hu hu' c1 c2 e
    simp only [Store.setTx, f4] at hu hu'
    by_cases n1 : k ≠ t ∨ b1 ≠ b
    · by_cases n2 : k' ≠ t ∨ b2 ≠ b
      · obtain ⟨v1, h1, e1⟩ := old k u b1 hu n1
        obtain ⟨v2, h2, e2⟩ := old k' u' b2 hu' n2
        rw [e1] at c1 e; rw [e2] at c2 e
        exact sp.arrays k v1 b1 k' v2 b2 h1 h2 c1 c2 e
      · push Not at n2
        obtain ⟨rfl, rfl⟩ := n2
        rw [List.getElem?_set_self ht] at hu'
        cases hu'
        rw [setSlice_slice, if_pos rfl] at e
        exact absurd e (key k u b1 hu n1 c1)
    · push Not at n1
      obtain ⟨rfl, rfl⟩ := n1
      by_cases n2 : k' ≠ k ∨ b2 ≠ b1
      · rw [List.getElem?_set_self ht] at hu
        cases hu
        rw [setSlice_slice, if_pos rfl] at e
        exact absurd e.symm (key k' u' b2 hu' n2 c2)
      · push Not at n2
        exact ⟨n2.1.symm, n2.2.symm⟩

/-- A signer after its flag has been defaulted. -/
def norm (s : InternalSigner) : InternalSigner := { s with SigHashFlag := s.effFlag }

/-- The store shows these values, and nothing is shared. -/
structure Sim (σ : Store) (v : Values) : Prop where
  len : σ.txs.length = v.txs.length
  reads : ∀ (k : Nat) (T : Transaction), v.txs[k]? = some T → Reads σ k T
  sep : Sep σ
  signers : σ.signers.map norm = v.signers.map norm

theorem Sim.ext {σ σ' : Store} {v : Values} (s : Sim σ v) (e : Ext σ σ') : Sim σ' v :=
  ⟨by rw [e.txs]; exact s.len, fun k T h => e.reads (s.reads k T h), e.sep s.sep, by rw [e.signers]; exact s.signers⟩

theorem Sim.obj {σ : Store} {v : Values} (s : Sim σ v) {k : Nat} {o : TxObj} (h : σ.txs[k]? = some o) : ∃ T, v.txs[k]? = some T ∧ Reads σ k T := by
  have hk : k < v.txs.length := by rw [← s.len]; exact (List.getElem?_eq_some_iff.1 h).1
  exact ⟨_, List.getElem?_eq_getElem hk, s.reads _ _ (List.getElem?_eq_getElem hk)⟩

theorem forall₂_snoc {α β : Type} {R : α → β → Prop} {l : List α} {m : List β} (h : List.Forall₂ R l m) {a : α} {b : β} (hab : R a b) :
    List.Forall₂ R (l ++ [a]) (m ++ [b]) := List.rel_append h (.cons hab .nil)

/-- An input object of the store is in range. -/
theorem Sim.input_lt {σ : Store} {v : Values} (s : Sim σ v) {k j n : Nat} {o : TxObj} (h : σ.txs[k]? = some o) (hj : (σ.refs o.Inputs)[j]? = some (some n)) :
    n < σ.inputs.length := by
  obtain ⟨T, -, o', ho', -, -, -, -, hi, -⟩ := s.obj h
  rw [h] at ho'; cases ho'
  rcases forall₂_getElem? hi j with ⟨h1, -⟩ | ⟨a, b, h1, -, h3⟩
  · rw [h1] at hj; cases hj
  · rw [h1] at hj; cases hj
    obtain ⟨m, i, e, hm, -⟩ := h3
    cases e
    exact (List.getElem?_eq_some_iff.1 hm).1

theorem seesInput_congr {σ σ' : Store} (h1 : σ'.scripts = σ.scripts) (h2 : σ'.inputs = σ.inputs) {p : Ref} {i : Input} (s : seesInput σ p i) : seesInput σ' p i :=
  seesInput_mono (by rw [h1]; exact List.prefix_rfl) (by rw [h2]; exact List.prefix_rfl) s

theorem seesOutput_congr {σ σ' : Store} (h1 : σ'.scripts = σ.scripts) (h2 : σ'.outputs = σ.outputs) {p : Ref} {o : Output} (s : seesOutput σ p o) : seesOutput σ' p o :=
  seesOutput_mono (by rw [h1]; exact List.prefix_rfl) (by rw [h2]; exact List.prefix_rfl) s

/-- `AddInput` of an object that is in no transaction yet. -/
theorem addInput_sim (g : Nat → Nat) {σ : Store} {v : Values} (s : Sim σ v) {t n : Nat} {T : Transaction} (hT : v.txs[t]? = some T) {i : Input}
    (hi : seesInput σ (some n) i) (hn : ∀ (k : Nat) (o : TxObj) (j : Nat), σ.txs[k]? = some o → (σ.refs o.Inputs)[j]? ≠ some (some n)) :
    ∃ σ', AddInput g σ t (some n) = .ok σ' ∧ Sim σ' { v with txs := v.txs.set t (T.AddInput i) } := by
  obtain ⟨o, ho, w1, w2, hv, hl, hins, houts⟩ := s.reads t T hT
  have P := pushed g s.sep ho false (some n)
  have ht : t < σ.txs.length := (List.getElem?_eq_some_iff.1 ho).1
  refine ⟨_, by simp only [AddInput, Store.tx, index_some ho, Res.ok_bind]; rfl, ?_⟩
  generalize hσ : ((σ.append g (o.slice false) (some n)).1.setTx t (o.setSlice (σ.append g (o.slice false) (some n)).2 false)) = σ' at P
  have hgoal : ((σ.append g o.Inputs (some n)).1.setTx t { o with Inputs := (σ.append g o.Inputs (some n)).2 }) = σ' := hσ
  rw [hgoal]
  obtain ⟨s', hs', hr'⟩ := P.txs
  have hins' : σ'.refs s' = σ.refs o.Inputs ++ [some n] := hr'
  have houts' : σ'.refs o.Outputs = σ.refs o.Outputs := P.same t o true ho (Or.inr (by decide))
  refine ⟨?_, ?_, ⟨P.wf, P.arrays, ?_⟩, ?_⟩
  · rw [hs', List.length_set, s.len]; simp
  · intro k K hK
    by_cases e : t = k
    · subst e
      simp only at hK
      rw [List.getElem?_set_self (by rw [← s.len]; exact ht)] at hK
      cases hK
      have hto : σ'.txs[t]? = some (o.setSlice s' false) := by rw [hs', List.getElem?_set_self ht]
      refine ⟨_, hto, P.wf t _ false hto, P.wf t _ true hto, hv, hl, ?_, ?_⟩
      · show List.Forall₂ _ (σ'.refs s') _
        rw [hins']
        exact forall₂_snoc (hins.imp fun _ _ h => seesInput_congr P.scripts P.inputs h) (seesInput_congr P.scripts P.inputs hi)
      · show List.Forall₂ _ (σ'.refs o.Outputs) _
        rw [houts']
        exact houts.imp fun _ _ h => seesOutput_congr P.scripts P.outputs h
    · simp only at hK
      rw [List.getElem?_set_ne e] at hK
      obtain ⟨o2, ho2, -, -, hv2, hl2, hi2, hos2⟩ := s.reads k K hK
      have hto : σ'.txs[k]? = some o2 := by rw [hs', List.getElem?_set_ne e, ho2]
      refine ⟨o2, hto, P.wf k _ false hto, P.wf k _ true hto, hv2, hl2, ?_, ?_⟩
      · have : σ'.refs o2.Inputs = σ.refs o2.Inputs := P.same k o2 false ho2 (Or.inl (Ne.symm e))
        rw [this]; exact hi2.imp fun _ _ h => seesInput_congr P.scripts P.inputs h
      · have : σ'.refs o2.Outputs = σ.refs o2.Outputs := P.same k o2 true ho2 (Or.inl (Ne.symm e))
        rw [this]; exact hos2.imp fun _ _ h => seesOutput_congr P.scripts P.outputs h
  · -- inputs stay in one place each
    have old : ∀ (k : Nat) (u : TxObj) (j m : Nat), σ'.txs[k]? = some u → (σ'.refs u.Inputs)[j]? = some (some m) →
        (∃ u0, σ.txs[k]? = some u0 ∧ (σ.refs u0.Inputs)[j]? = some (some m)) ∨ (k = t ∧ j = (σ.refs o.Inputs).length ∧ m = n) := by
      intro k u j m hu hj
      by_cases e : t = k
      · subst e
        rw [hs', List.getElem?_set_self ht] at hu
        cases hu
        have hj' : (σ.refs o.Inputs ++ [some n])[j]? = some (some m) := by rw [← hins']; exact hj
        by_cases hlt : j < (σ.refs o.Inputs).length
        · left
          rw [List.getElem?_append_left hlt] at hj'
          exact ⟨o, ho, hj'⟩
        · right
          rw [List.getElem?_append_right (by omega)] at hj'
          obtain ⟨h1, h2⟩ := List.getElem?_eq_some_iff.1 hj'
          have hz : j - (σ.refs o.Inputs).length = 0 := by simpa using h1
          refine ⟨rfl, by omega, ?_⟩
          simp only [hz, List.getElem_cons_zero] at h2
          cases h2; rfl
      · left
        rw [hs', List.getElem?_set_ne e] at hu
        have : σ'.refs u.Inputs = σ.refs u.Inputs := P.same k u false hu (Or.inl (Ne.symm e))
        rw [this] at hj
        exact ⟨u, hu, hj⟩
    intro k u j k' u' j' m hu hu' hj hj'
    rcases old k u j m hu hj with ⟨u0, h0, hj0⟩ | ⟨rfl, rfl, rfl⟩
    · rcases old k' u' j' m hu' hj' with ⟨u1, h1, hj1⟩ | ⟨rfl, rfl, rfl⟩
      · exact s.sep.inputs k u0 j k' u1 j' m h0 h1 hj0 hj1
      · exact absurd hj0 (hn k u0 j h0)
    · rcases old k' u' j' m hu' hj' with ⟨u1, h1, hj1⟩ | ⟨rfl, rfl, -⟩
      · exact absurd hj1 (hn k' u1 j' h1)
      · exact ⟨rfl, rfl⟩
  · rw [P.signers]; exact s.signers

/-- `AddOutput`. -/
theorem addOutput_sim (g : Nat → Nat) {σ : Store} {v : Values} (s : Sim σ v) {t : Nat} {T : Transaction} (hT : v.txs[t]? = some T) {p : Ref} {x : Output}
    (hx : seesOutput σ p x) : ∃ σ', AddOutput g σ t p = .ok σ' ∧ Sim σ' { v with txs := v.txs.set t (T.AddOutput x) } := by
  obtain ⟨o, ho, w1, w2, hv, hl, hins, houts⟩ := s.reads t T hT
  have P := pushed g s.sep ho true p
  have ht : t < σ.txs.length := (List.getElem?_eq_some_iff.1 ho).1
  refine ⟨_, by simp only [AddOutput, Store.tx, index_some ho, Res.ok_bind]; rfl, ?_⟩
  generalize hσ : ((σ.append g (o.slice true) p).1.setTx t (o.setSlice (σ.append g (o.slice true) p).2 true)) = σ' at P
  have hgoal : ((σ.append g o.Outputs p).1.setTx t { o with Outputs := (σ.append g o.Outputs p).2 }) = σ' := hσ
  rw [hgoal]
  obtain ⟨s', hs', hr'⟩ := P.txs
  have houts' : σ'.refs s' = σ.refs o.Outputs ++ [p] := hr'
  have hins' : σ'.refs o.Inputs = σ.refs o.Inputs := P.same t o false ho (Or.inr (by decide))
  have old : ∀ (k : Nat) (u : TxObj), σ'.txs[k]? = some u → ∃ u0, σ.txs[k]? = some u0 ∧ σ'.refs u.Inputs = σ.refs u0.Inputs := by
    intro k u hu
    by_cases e : t = k
    · subst e
      rw [hs', List.getElem?_set_self ht] at hu
      cases hu
      exact ⟨o, ho, hins'⟩
    · rw [hs', List.getElem?_set_ne e] at hu
      exact ⟨u, hu, P.same k u false hu (Or.inl (Ne.symm e))⟩
  refine ⟨?_, ?_, ⟨P.wf, P.arrays, ?_⟩, ?_⟩
  · rw [hs', List.length_set, s.len]; simp
  · intro k K hK
    by_cases e : t = k
    · subst e
      simp only at hK
      rw [List.getElem?_set_self (by rw [← s.len]; exact ht)] at hK
      cases hK
      have hto : σ'.txs[t]? = some (o.setSlice s' true) := by rw [hs', List.getElem?_set_self ht]
      refine ⟨_, hto, P.wf t _ false hto, P.wf t _ true hto, hv, hl, ?_, ?_⟩
      · show List.Forall₂ _ (σ'.refs o.Inputs) _
        rw [hins']
        exact hins.imp fun _ _ h => seesInput_congr P.scripts P.inputs h
      · show List.Forall₂ _ (σ'.refs s') _
        rw [houts']
        exact forall₂_snoc (houts.imp fun _ _ h => seesOutput_congr P.scripts P.outputs h) (seesOutput_congr P.scripts P.outputs hx)
    · simp only at hK
      rw [List.getElem?_set_ne e] at hK
      obtain ⟨o2, ho2, -, -, hv2, hl2, hi2, hos2⟩ := s.reads k K hK
      have hto : σ'.txs[k]? = some o2 := by rw [hs', List.getElem?_set_ne e, ho2]
      refine ⟨o2, hto, P.wf k _ false hto, P.wf k _ true hto, hv2, hl2, ?_, ?_⟩
      · have : σ'.refs o2.Inputs = σ.refs o2.Inputs := P.same k o2 false ho2 (Or.inl (Ne.symm e))
        rw [this]; exact hi2.imp fun _ _ h => seesInput_congr P.scripts P.inputs h
      · have : σ'.refs o2.Outputs = σ.refs o2.Outputs := P.same k o2 true ho2 (Or.inl (Ne.symm e))
        rw [this]; exact hos2.imp fun _ _ h => seesOutput_congr P.scripts P.outputs h
  · intro k u j k' u' j' m hu hu' hj hj'
    obtain ⟨u0, h0, e0⟩ := old k u hu
    obtain ⟨u1, h1, e1⟩ := old k' u' hu'
    rw [e0] at hj; rw [e1] at hj'
    exact s.sep.inputs k u0 j k' u1 j' m h0 h1 hj hj'
  · rw [P.signers]; exact s.signers

end Verif.Obj
