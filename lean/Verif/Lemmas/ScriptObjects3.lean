import Verif.Lemmas.ScriptObjects2
/-!
# Programs that append to scripts simulate values
-/
namespace Verif.Obj
open Verif

/-- All invariants of a program that shares nothing. -/
structure Sim3 (σ : Store) (v : Values) : Prop where
  sim : Sim σ v
  scripts : SSep σ
  outputs : OSep σ

theorem ssep_set {σ : Store} (s : SSep σ) (k : Nat) (b : Bytes) : SSep { σ with scripts := σ.scripts.set k b } :=
  s.step (by simp) fun a n ha => Or.inl (by cases a <;> exact ha)

/-- The script object in exactly one field of one transaction gets new contents. -/
theorem set_sim {σ : Store} {v : Values} (s : Sim3 σ v) {k : Nat} (hk : k < σ.scripts.length) (b' : Bytes) {t : Nat} {o : TxObj} {T : Transaction}
    (ho : σ.txs[t]? = some o) (hT : v.txs[t]? = some T) {T' : Transaction}
    (hE : T' = { T with Inputs := List.zipWith (swapIn σ k b') (σ.refs o.Inputs) T.Inputs, Outputs := List.zipWith (swapOut σ k b') (σ.refs o.Outputs) T.Outputs })
    (hin : ∀ (u : Nat) (x : TxObj) (j n : Nat), σ.txs[u]? = some x → (σ.refs x.Inputs)[j]? = some (some n) →
      (slotRef σ (.prev n) = some k ∨ slotRef σ (.unl n) = some k) → u = t)
    (hout : ∀ (u : Nat) (x : TxObj) (j n : Nat), σ.txs[u]? = some x → (σ.refs x.Outputs)[j]? = some (some n) → slotRef σ (.lock n) = some k → u = t) :
    Sim3 { σ with scripts := σ.scripts.set k b' } { v with txs := v.txs.set t T' } := by
  have hto : t < v.txs.length := (List.getElem?_eq_some_iff.1 hT).1
  refine ⟨⟨by simp only [List.length_set]; exact s.sim.len, ?_, ⟨s.sim.sep.wf, s.sim.sep.arrays, s.sim.sep.inputs⟩, s.sim.signers⟩, ssep_set s.scripts k b', s.outputs.same rfl rfl⟩
  intro u U hU
  by_cases e : t = u
  · subst e
    simp only at hU
    rw [List.getElem?_set_self hto] at hU
    cases hU
    rw [hE]
    exact reads_swap hk b' ho (s.sim.reads t T hT)
  · simp only at hU
    rw [List.getElem?_set_ne e] at hU
    obtain ⟨x, hx, w1, w2, hv, hl, hi, hos⟩ := id (s.sim.reads u U hU)
    have R := reads_swap hk b' hx (s.sim.reads u U hU)
    have E1 : List.zipWith (swapIn σ k b') (σ.refs x.Inputs) U.Inputs = U.Inputs := by
      apply List.ext_getElem?
      intro n
      rw [List.getElem?_zipWith]
      rcases forall₂_getElem? hi n with ⟨e1, e2⟩ | ⟨p, j, e1, e2, hpj⟩
      · rw [e1, e2]
      · rw [e1, e2]
        obtain ⟨m, q, rfl, hq, -⟩ := hpj
        have k1 : ¬ q.PreviousTxScript = some k := fun h => e (hin u x n m hx e1 (Or.inl (by simp only [slotRef, hq]; exact h))).symm
        have k2 : ¬ q.UnlockingScript = some k := fun h => e (hin u x n m hx e1 (Or.inr (by simp only [slotRef, hq]; exact h))).symm
        simp [swapIn, hq, k1, k2]
    have E2 : List.zipWith (swapOut σ k b') (σ.refs x.Outputs) U.Outputs = U.Outputs := by
      apply List.ext_getElem?
      intro n
      rw [List.getElem?_zipWith]
      rcases forall₂_getElem? hos n with ⟨e1, e2⟩ | ⟨p, j, e1, e2, hpj⟩
      · rw [e1, e2]
      · rw [e1, e2]
        obtain ⟨m, q, rfl, hq, -⟩ := hpj
        have k1 : ¬ q.LockingScript = some k := fun h => e (hout u x n m hx e1 (by simp only [slotRef, hq]; exact h)).symm
        simp [swapOut, hq, k1]
    rw [E1, E2] at R
    exact R

theorem append_sim {σ : Store} {v : Values} (s : Sim3 σ v) (t : Nat) (w : Place) (p : Piece) :
    ((do let r ← w.pointer σ t; orKeep σ (p.call σ r)) = .panic ∧ v.at t (w.grow · p) = .panic) ∨
    ∃ σ' v', (do let r ← w.pointer σ t; orKeep σ (p.call σ r)) = .ok σ' ∧ v.at t (w.grow · p) = .ok v' ∧ Sim3 σ' v' := by
  cases ho : σ.txs[t]? with
  | none =>
    left
    have hv : v.txs[t]? = none := by
      rw [List.getElem?_eq_none_iff] at ho ⊢
      rw [← s.sim.len]; exact ho
    refine ⟨?_, by simp only [Values.at, index_none hv]; rfl⟩
    cases w <;> simp only [Place.pointer, Store.tx, index_none ho, Res.panic_bind]
  | some o =>
  obtain ⟨T, hT, R⟩ := s.sim.obj ho
  obtain ⟨o', ho', w1, w2, hv, hl, hi, hos⟩ := id R
  rw [ho] at ho'; cases ho'
  rw [at_eq v hT]
  have sepIn := s.sim.sep.inputs
  have inj := s.scripts.inj
  cases w with
  | previous i =>
    simp only [Place.pointer, Place.grow, Store.tx, index_some ho, Res.ok_bind]
    rcases forall₂_getElem? hi i with ⟨h1, h2⟩ | ⟨r, x, h1, h2, h3⟩
    · left; rw [index_none h1, index_none h2]; exact ⟨rfl, rfl⟩
    rw [index_some h1, index_some h2]
    obtain ⟨n, q, rfl, hq, a1, a2, a3, a4, a5, a6⟩ := id h3
    simp only [Res.ok_bind, Store.input, index_some hq, Res.pure_eq]
    rcases call_sees a4 p with ⟨c1, c2⟩ | ⟨e, c1, c2⟩ | ⟨k, b', hk, hkl, c1, c2⟩
    · left; rw [c1, c2]; exact ⟨rfl, rfl⟩
    · right; rw [c1, c2]; exact ⟨σ, v, rfl, rfl, s⟩
    · right
      rw [c1, c2]
      refine ⟨_, _, rfl, rfl, set_sim s hkl b' ho hT ?_ ?_ ?_⟩
      · have hs : slotRef σ (.prev n) = some k := by simp only [slotRef, hq]; exact hk
        have E2 : List.zipWith (swapOut σ k b') (σ.refs o.Outputs) T.Outputs = T.Outputs := by
          apply List.ext_getElem?
          intro m
          rw [List.getElem?_zipWith]
          rcases forall₂_getElem? hos m with ⟨e1, e2⟩ | ⟨p', j, e1, e2, hpj⟩
          · rw [e1, e2]
          · rw [e1, e2]
            obtain ⟨m', q', rfl, hq', -⟩ := hpj
            have k1 : ¬ q'.LockingScript = some k := fun h => by
              have := inj (.lock m') (.prev n) k (by simp only [slotRef, hq']; exact h) hs
              cases this
            simp [swapOut, hq', k1]
        have E1 : List.zipWith (swapIn σ k b') (σ.refs o.Inputs) T.Inputs = T.Inputs.set i { x with PreviousTxScript := some b' } := by
          apply List.ext_getElem?
          intro m
          rw [List.getElem?_zipWith]
          rcases forall₂_getElem? hi m with ⟨e1, e2⟩ | ⟨p', j, e1, e2, hpj⟩
          · have : T.Inputs.length ≤ m := List.getElem?_eq_none_iff.1 e2
            rw [e1, e2, List.getElem?_eq_none_iff.2 (by rw [List.length_set]; exact this)]
          · have hm : m < T.Inputs.length := (List.getElem?_eq_some_iff.1 e2).1
            rw [e1, e2]
            obtain ⟨m', q', rfl, hq', -⟩ := hpj
            have k2 : ¬ q'.UnlockingScript = some k := fun h => by
              have := inj (.unl m') (.prev n) k (by simp only [slotRef, hq']; exact h) hs
              cases this
            by_cases en : i = m
            · subst en
              rw [h1] at e1; cases e1
              rw [h2] at e2; cases e2
              rw [hq] at hq'; cases hq'
              rw [List.getElem?_set_self hm]
              simp [swapIn, hq, k2, hk]
            · rw [List.getElem?_set_ne en, e2]
              have k1 : ¬ q'.PreviousTxScript = some k := fun h => by
                have := inj (.prev m') (.prev n) k (by simp only [slotRef, hq']; exact h) hs
                cases this
                exact en (sepIn t o i t o m n ho ho h1 e1).2
              simp [swapIn, hq', k1, k2]
        rw [E1, E2]
      · intro u y j m hu hj hm
        have hs : slotRef σ (.prev n) = some k := by simp only [slotRef, hq]; exact hk
        rcases hm with hm | hm
        · cases inj _ _ k hm hs
          exact (sepIn u y j t o i n hu ho hj h1).1
        · cases inj _ _ k hm hs
      · intro u y j m hu hj hm
        have hs : slotRef σ (.prev n) = some k := by simp only [slotRef, hq]; exact hk
        cases inj _ _ k hm hs
  | unlocking i =>
    simp only [Place.pointer, Place.grow, Store.tx, index_some ho, Res.ok_bind]
    rcases forall₂_getElem? hi i with ⟨h1, h2⟩ | ⟨r, x, h1, h2, h3⟩
    · left; rw [index_none h1, index_none h2]; exact ⟨rfl, rfl⟩
    rw [index_some h1, index_some h2]
    obtain ⟨n, q, rfl, hq, a1, a2, a3, a4, a5, a6⟩ := id h3
    simp only [Res.ok_bind, Store.input, index_some hq, Res.pure_eq]
    rcases call_sees a5 p with ⟨c1, c2⟩ | ⟨e, c1, c2⟩ | ⟨k, b', hk, hkl, c1, c2⟩
    · left; rw [c1, c2]; exact ⟨rfl, rfl⟩
    · right; rw [c1, c2]; exact ⟨σ, v, rfl, rfl, s⟩
    · right
      rw [c1, c2]
      refine ⟨_, _, rfl, rfl, set_sim s hkl b' ho hT ?_ ?_ ?_⟩
      · have hs : slotRef σ (.unl n) = some k := by simp only [slotRef, hq]; exact hk
        have E2 : List.zipWith (swapOut σ k b') (σ.refs o.Outputs) T.Outputs = T.Outputs := by
          apply List.ext_getElem?
          intro m
          rw [List.getElem?_zipWith]
          rcases forall₂_getElem? hos m with ⟨e1, e2⟩ | ⟨p', j, e1, e2, hpj⟩
          · rw [e1, e2]
          · rw [e1, e2]
            obtain ⟨m', q', rfl, hq', -⟩ := hpj
            have k1 : ¬ q'.LockingScript = some k := fun h => by
              have := inj (.lock m') (.unl n) k (by simp only [slotRef, hq']; exact h) hs
              cases this
            simp [swapOut, hq', k1]
        have E1 : List.zipWith (swapIn σ k b') (σ.refs o.Inputs) T.Inputs = T.Inputs.set i { x with UnlockingScript := some b' } := by
          apply List.ext_getElem?
          intro m
          rw [List.getElem?_zipWith]
          rcases forall₂_getElem? hi m with ⟨e1, e2⟩ | ⟨p', j, e1, e2, hpj⟩
          · have : T.Inputs.length ≤ m := List.getElem?_eq_none_iff.1 e2
            rw [e1, e2, List.getElem?_eq_none_iff.2 (by rw [List.length_set]; exact this)]
          · have hm : m < T.Inputs.length := (List.getElem?_eq_some_iff.1 e2).1
            rw [e1, e2]
            obtain ⟨m', q', rfl, hq', -⟩ := hpj
            have k2 : ¬ q'.PreviousTxScript = some k := fun h => by
              have := inj (.prev m') (.unl n) k (by simp only [slotRef, hq']; exact h) hs
              cases this
            by_cases en : i = m
            · subst en
              rw [h1] at e1; cases e1
              rw [h2] at e2; cases e2
              rw [hq] at hq'; cases hq'
              rw [List.getElem?_set_self hm]
              simp [swapIn, hq, k2, hk]
            · rw [List.getElem?_set_ne en, e2]
              have k1 : ¬ q'.UnlockingScript = some k := fun h => by
                have := inj (.unl m') (.unl n) k (by simp only [slotRef, hq']; exact h) hs
                cases this
                exact en (sepIn t o i t o m n ho ho h1 e1).2
              simp [swapIn, hq', k1, k2]
        rw [E1, E2]
      · intro u y j m hu hj hm
        have hs : slotRef σ (.unl n) = some k := by simp only [slotRef, hq]; exact hk
        rcases hm with hm | hm
        · cases inj _ _ k hm hs
        · cases inj _ _ k hm hs
          exact (sepIn u y j t o i n hu ho hj h1).1
      · intro u y j m hu hj hm
        have hs : slotRef σ (.unl n) = some k := by simp only [slotRef, hq]; exact hk
        cases inj _ _ k hm hs
  | locking i =>
    simp only [Place.pointer, Place.grow, Store.tx, index_some ho, Res.ok_bind]
    rcases forall₂_getElem? hos i with ⟨h1, h2⟩ | ⟨r, x, h1, h2, h3⟩
    · left; rw [index_none h1, index_none h2]; exact ⟨rfl, rfl⟩
    rw [index_some h1, index_some h2]
    obtain ⟨n, q, rfl, hq, a1, a2⟩ := id h3
    simp only [Res.ok_bind, Store.output, index_some hq, Res.pure_eq]
    rcases call_sees a2 p with ⟨c1, c2⟩ | ⟨e, c1, c2⟩ | ⟨k, b', hk, hkl, c1, c2⟩
    · left; rw [c1, show p.onto x.LockingScript = .panic from c2]; exact ⟨rfl, rfl⟩
    · right; rw [c1, show p.onto x.LockingScript = .err e from c2]; exact ⟨σ, v, rfl, rfl, s⟩
    · right
      rw [c1, show p.onto x.LockingScript = .ok b' from c2]
      have hs : slotRef σ (.lock n) = some k := by simp only [slotRef, hq]; exact hk
      refine ⟨_, _, rfl, rfl, set_sim s hkl b' ho hT ?_ ?_ ?_⟩
      · have E1 : List.zipWith (swapIn σ k b') (σ.refs o.Inputs) T.Inputs = T.Inputs := by
          apply List.ext_getElem?
          intro m
          rw [List.getElem?_zipWith]
          rcases forall₂_getElem? hi m with ⟨e1, e2⟩ | ⟨p', j, e1, e2, hpj⟩
          · rw [e1, e2]
          · rw [e1, e2]
            obtain ⟨m', q', rfl, hq', -⟩ := hpj
            have k1 : ¬ q'.PreviousTxScript = some k := fun h => by
              have := inj (.prev m') (.lock n) k (by simp only [slotRef, hq']; exact h) hs
              cases this
            have k2 : ¬ q'.UnlockingScript = some k := fun h => by
              have := inj (.unl m') (.lock n) k (by simp only [slotRef, hq']; exact h) hs
              cases this
            simp [swapIn, hq', k1, k2]
        have E2 : List.zipWith (swapOut σ k b') (σ.refs o.Outputs) T.Outputs = T.Outputs.set i { x with LockingScript := b' } := by
          apply List.ext_getElem?
          intro m
          rw [List.getElem?_zipWith]
          rcases forall₂_getElem? hos m with ⟨e1, e2⟩ | ⟨p', j, e1, e2, hpj⟩
          · have : T.Outputs.length ≤ m := List.getElem?_eq_none_iff.1 e2
            rw [e1, e2, List.getElem?_eq_none_iff.2 (by rw [List.length_set]; exact this)]
          · have hm : m < T.Outputs.length := (List.getElem?_eq_some_iff.1 e2).1
            rw [e1, e2]
            obtain ⟨m', q', rfl, hq', -⟩ := hpj
            by_cases en : i = m
            · subst en
              rw [h1] at e1; cases e1
              rw [h2] at e2; cases e2
              rw [hq] at hq'; cases hq'
              rw [List.getElem?_set_self hm]
              simp [swapOut, hq, hk]
            · rw [List.getElem?_set_ne en, e2]
              have k1 : ¬ q'.LockingScript = some k := fun h => by
                have := inj (.lock m') (.lock n) k (by simp only [slotRef, hq']; exact h) hs
                cases this
                exact en (s.outputs t o i t o m n ho ho h1 e1).2
              simp [swapOut, hq', k1]
        rw [E1, E2]
      · intro u y j m hu hj hm
        rcases hm with hm | hm
        · cases inj _ _ k hm hs
        · cases inj _ _ k hm hs
      · intro u y j m hu hj hm
        cases inj _ _ k hm hs
        exact (s.outputs u y j t o i n hu ho hj h1).1

theorem step_sim (H : HashFns) (g : Nat → Nat) {σ : Store} {v : Values} (s : Sim3 σ v) (c : Step) (hc : c.built) :
    (c.run H g σ = .panic ∧ c.runValues H v = .panic) ∨ ∃ σ' v', c.run H g σ = .ok σ' ∧ c.runValues H v = .ok v' ∧ Sim3 σ' v' := by
  cases c with
  | call c =>
    rcases call_sim H g s.sim c with h | ⟨σ', v', h1, h2, h3⟩
    · exact Or.inl h
    · exact Or.inr ⟨σ', v', h1, h2, h3, ssep_call H g s.scripts c hc h1, osep_call H g s.sim s.outputs c hc h1⟩
  | append t w p => exact append_sim s t w p

theorem steps_sim (H : HashFns) (g : Nat → Nat) : ∀ (cs : List Step), (∀ c ∈ cs, c.built) → ∀ {σ : Store} {v : Values}, Sim3 σ v →
    (runSteps H g cs σ = .panic ∧ runStepValues H cs v = .panic) ∨ ∃ σ' v', runSteps H g cs σ = .ok σ' ∧ runStepValues H cs v = .ok v' ∧ Sim3 σ' v'
  | [], _, σ, v, s => Or.inr ⟨σ, v, rfl, rfl, s⟩
  | c :: cs, hb, σ, v, s => by
    simp only [runSteps, runStepValues]
    rcases step_sim H g s c (hb c (by simp)) with ⟨h1, h2⟩ | ⟨σ', v', h1, h2, h3⟩
    · left; rw [h1, h2]; exact ⟨rfl, rfl⟩
    · rw [h1, h2, Res.ok_bind, Res.ok_bind]
      exact steps_sim H g cs (fun c hc => hb c (by simp [hc])) h3

theorem empty_sim3 : Sim3 Store.empty ⟨[], []⟩ := ⟨empty_sim, empty_ssep, empty_osep⟩

end Verif.Obj
