import Verif.Spec.ScriptObjects
import Verif.Lemmas.Objects5
/-!
# Script objects that no two fields share
-/
namespace Verif.Obj
open Verif

/-- A script field of an object. -/
inductive Slot where
  | prev (n : Nat)
  | unl (n : Nat)
  | lock (n : Nat)
deriving DecidableEq

def slotRef (σ : Store) : Slot → Ref
  | .prev n => (σ.inputs[n]?).bind (·.PreviousTxScript)
  | .unl n => (σ.inputs[n]?).bind (·.UnlockingScript)
  | .lock n => (σ.outputs[n]?).bind (·.LockingScript)

/-- No two fields hold the same script object. -/
structure SSep (σ : Store) : Prop where
  bound : ∀ a k, slotRef σ a = some k → k < σ.scripts.length
  inj : ∀ a b k, slotRef σ a = some k → slotRef σ b = some k → a = b

theorem SSep.step {σ σ' : Store} (s : SSep σ) (hl : σ.scripts.length ≤ σ'.scripts.length)
    (h : ∀ a k, slotRef σ' a = some k → slotRef σ a = some k ∨
      (σ.scripts.length ≤ k ∧ k < σ'.scripts.length ∧ ∀ b, slotRef σ' b = some k → b = a)) : SSep σ' := by
  constructor
  · intro a k ha
    rcases h a k ha with h1 | ⟨-, h2, -⟩
    · exact lt_of_lt_of_le (s.bound a k h1) hl
    · exact h2
  · intro a b k ha hb
    rcases h a k ha with h1 | ⟨-, -, h2⟩
    · rcases h b k hb with h3 | ⟨-, -, h4⟩
      · exact s.inj a b k h1 h3
      · exact h4 a ha
    · exact (h2 b hb).symm

theorem SSep.same {σ σ' : Store} (s : SSep σ) (h1 : σ'.scripts = σ.scripts) (h2 : σ'.inputs = σ.inputs) (h3 : σ'.outputs = σ.outputs) : SSep σ' := by
  refine s.step (by rw [h1]) fun a k ha => Or.inl ?_
  cases a <;> simpa only [slotRef, h2, h3] using ha

theorem ssep_newScript {σ : Store} (s : SSep σ) (b : Bytes) : SSep (σ.newScript b).1 :=
  s.step (by simp [Store.newScript]) fun a k ha => Or.inl (by cases a <;> exact ha)

theorem ssep_newInput {σ σ' : Store} (s : SSep σ) (hl : σ.scripts.length ≤ σ'.scripts.length) (o : InputObj) (hi : σ'.inputs = σ.inputs ++ [o]) (ho : σ'.outputs = σ.outputs)
    (h1 : ∀ k, o.PreviousTxScript = some k → σ.scripts.length ≤ k ∧ k < σ'.scripts.length)
    (h2 : ∀ k, o.UnlockingScript = some k → σ.scripts.length ≤ k ∧ k < σ'.scripts.length)
    (h3 : ∀ k, o.PreviousTxScript = some k → o.UnlockingScript ≠ some k) : SSep σ' := by
  have hp : ∀ n k, slotRef σ' (.prev n) = some k → slotRef σ (.prev n) = some k ∨ (n = σ.inputs.length ∧ o.PreviousTxScript = some k) := by
    intro n k h
    simp only [slotRef, hi] at h ⊢
    by_cases e : n < σ.inputs.length
    · rw [List.getElem?_append_left e] at h; exact Or.inl h
    · by_cases e2 : n = σ.inputs.length
      · subst e2; simp at h; exact Or.inr ⟨rfl, h⟩
      · rw [List.getElem?_eq_none (by simp; omega)] at h; cases h
  have hu : ∀ n k, slotRef σ' (.unl n) = some k → slotRef σ (.unl n) = some k ∨ (n = σ.inputs.length ∧ o.UnlockingScript = some k) := by
    intro n k h
    simp only [slotRef, hi] at h ⊢
    by_cases e : n < σ.inputs.length
    · rw [List.getElem?_append_left e] at h; exact Or.inl h
    · by_cases e2 : n = σ.inputs.length
      · subst e2; simp at h; exact Or.inr ⟨rfl, h⟩
      · rw [List.getElem?_eq_none (by simp; omega)] at h; cases h
  have hk : ∀ n k, slotRef σ' (.lock n) = some k → slotRef σ (.lock n) = some k := by
    intro n k h; simpa only [slotRef, ho] using h
  have low : ∀ a k, slotRef σ a = some k → ¬ σ.scripts.length ≤ k := fun a k h => by have := s.bound a k h; omega
  refine s.step hl fun a k ha => ?_
  cases a with
  | prev n =>
    rcases hp n k ha with h | ⟨rfl, h⟩
    · exact Or.inl h
    · refine Or.inr ⟨(h1 k h).1, (h1 k h).2, fun b hb => ?_⟩
      cases b with
      | prev m => rcases hp m k hb with h' | ⟨rfl, -⟩
                  · exact absurd (h1 k h).1 (low _ _ h')
                  · rfl
      | unl m => rcases hu m k hb with h' | ⟨rfl, h'⟩
                 · exact absurd (h1 k h).1 (low _ _ h')
                 · exact absurd h' (h3 k h)
      | lock m => exact absurd (h1 k h).1 (low _ _ (hk m k hb))
  | unl n =>
    rcases hu n k ha with h | ⟨rfl, h⟩
    · exact Or.inl h
    · refine Or.inr ⟨(h2 k h).1, (h2 k h).2, fun b hb => ?_⟩
      cases b with
      | prev m => rcases hp m k hb with h' | ⟨rfl, h'⟩
                  · exact absurd (h2 k h).1 (low _ _ h')
                  · exact absurd h (h3 k h')
      | unl m => rcases hu m k hb with h' | ⟨rfl, -⟩
                 · exact absurd (h2 k h).1 (low _ _ h')
                 · rfl
      | lock m => exact absurd (h2 k h).1 (low _ _ (hk m k hb))
  | lock n => exact Or.inl (hk n k ha)

theorem ssep_mkInput {σ : Store} (s : SSep σ) (i : Input) : SSep (mkInput σ i).1 := by
  obtain ⟨a, b, c, d, e, f⟩ := i
  cases d <;> cases e <;>
  · refine ssep_newInput s ?_ _ rfl rfl ?_ ?_ ?_ <;> simp [mkInput, newScript?, Store.newInput, Store.newScript]

theorem ssep_mkOutput {σ : Store} (s : SSep σ) (o : Output) : SSep (mkOutput σ o).1 := by
  have hk : ∀ n k, slotRef (mkOutput σ o).1 (.lock n) = some k → slotRef σ (.lock n) = some k ∨ (n = σ.outputs.length ∧ k = σ.scripts.length) := by
    intro n k h
    simp only [slotRef, mkOutput, Store.newOutput, Store.newScript] at h ⊢
    by_cases e : n < σ.outputs.length
    · rw [List.getElem?_append_left e] at h; exact Or.inl h
    · by_cases e2 : n = σ.outputs.length
      · subst e2; simp at h; exact Or.inr ⟨rfl, h.symm⟩
      · rw [List.getElem?_eq_none (by simp; omega)] at h; cases h
  refine s.step (by simp [mkOutput, Store.newOutput, Store.newScript]) fun a k ha => ?_
  cases a with
  | prev n => exact Or.inl ha
  | unl n => exact Or.inl ha
  | lock n =>
    rcases hk n k ha with h | ⟨rfl, rfl⟩
    · exact Or.inl h
    · refine Or.inr ⟨le_refl _, by simp [mkOutput, Store.newOutput, Store.newScript], fun b hb => ?_⟩
      cases b with
      | prev m => exact absurd (s.bound (.prev m) _ hb) (lt_irrefl _)
      | unl m => exact absurd (s.bound (.unl m) _ hb) (lt_irrefl _)
      | lock m =>
        rcases hk m _ hb with h | ⟨rfl, -⟩
        · exact absurd (s.bound _ _ h) (lt_irrefl _)
        · rfl

theorem ssep_addInput {g : Nat → Nat} {σ σ' : Store} (s : SSep σ) {t : Nat} {p : Ref} (h : AddInput g σ t p = .ok σ') : SSep σ' := by
  unfold AddInput at h
  obtain ⟨o, -, h⟩ := Res.bind_eq_ok.1 h
  cases h
  have f := append_fields g σ o.Inputs p
  exact s.same f.1 f.2.1 f.2.2.1

theorem ssep_addOutput {g : Nat → Nat} {σ σ' : Store} (s : SSep σ) {t : Nat} {p : Ref} (h : AddOutput g σ t p = .ok σ') : SSep σ' := by
  unfold AddOutput at h
  obtain ⟨o, -, h⟩ := Res.bind_eq_ok.1 h
  cases h
  have f := append_fields g σ o.Outputs p
  exact s.same f.1 f.2.1 f.2.2.1

/-- A new script becomes the unlocking script of an input object. -/
theorem ssep_apply {σ σ' : Store} (s : SSep σ) {t : Nat} {idx : UInt32} {b : Bytes} (h : ApplyUnlockingScript (σ.newScript b).1 t idx (σ.newScript b).2 = .ok σ') : SSep σ' := by
  unfold ApplyUnlockingScript at h
  obtain ⟨o, ho, h⟩ := Res.bind_eq_ok.1 h
  obtain ⟨p, hp, h⟩ := Res.bind_eq_ok.1 h
  cases p with
  | none => cases h
  | some n =>
    obtain ⟨q, hq, h⟩ := Res.bind_eq_ok.1 h
    cases h
    have hq' : σ.inputs[n]? = some q := index_ok.1 hq
    have hn : n < σ.inputs.length := (List.getElem?_eq_some_iff.1 hq').1
    have hu : ∀ m k, slotRef ((σ.newScript b).1.setInput n { q with UnlockingScript := (σ.newScript b).2 }) (.unl m) = some k →
        slotRef σ (.unl m) = some k ∨ (m = n ∧ k = σ.scripts.length) := by
      intro m k hm
      simp only [slotRef, Store.setInput, Store.newScript] at hm ⊢
      by_cases e : n = m
      · subst e
        rw [List.getElem?_set_self hn] at hm
        simp at hm
        exact Or.inr ⟨rfl, hm.symm⟩
      · rw [List.getElem?_set_ne e] at hm; exact Or.inl hm
    have hpv : ∀ m k, slotRef ((σ.newScript b).1.setInput n { q with UnlockingScript := (σ.newScript b).2 }) (.prev m) = some k →
        slotRef σ (.prev m) = some k := by
      intro m k hm
      simp only [slotRef, Store.setInput, Store.newScript] at hm ⊢
      by_cases e : n = m
      · subst e
        rw [List.getElem?_set_self hn] at hm
        rw [hq']; exact hm
      · rw [List.getElem?_set_ne e] at hm; exact hm
    refine s.step (by simp [Store.setInput, Store.newScript]) fun a k ha => ?_
    cases a with
    | prev m => exact Or.inl (hpv m k ha)
    | lock m => exact Or.inl ha
    | unl m =>
      rcases hu m k ha with h | ⟨rfl, rfl⟩
      · exact Or.inl h
      · refine Or.inr ⟨le_refl _, by simp [Store.setInput, Store.newScript], fun c hc => ?_⟩
        cases c with
        | prev j => exact absurd (s.bound _ _ (hpv j _ hc)) (lt_irrefl _)
        | lock j => exact absurd (s.bound (.lock j) _ hc) (lt_irrefl _)
        | unl j =>
          rcases hu j _ hc with h | ⟨rfl, -⟩
          · exact absurd (s.bound _ _ h) (lt_irrefl _)
          · rfl

theorem ssep_internalSign (H : HashFns) {σ σ' : Store} (s : SSep σ) {sg t : Nat} {idx : UInt32} {e : Except String Ref} (h : InternalSign H σ sg idx t = .ok (σ', e)) : SSep σ' := by
  unfold InternalSign at h
  obtain ⟨a, -, h⟩ := Res.bind_eq_ok.1 h
  have s1 : SSep (defaultFlag σ sg a) := s.same rfl rfl rfl
  simp only at h
  split at h
  · cases h
  · cases h; exact s1
  split at h
  · cases h
  · cases h; exact s1
  split at h
  · cases h
  · cases h; exact ssep_newScript s1 _
  · rename_i hap
    cases h
    exact ssep_apply s1 hap

theorem ssep_signAutoLoop (H : HashFns) {sg : Nat} {a : InternalSigner} {t : Nat} : ∀ (ps : List Ref) (i : Nat) {σ σ' : Store}, SSep σ → signAutoLoop H sg a t i ps σ = .ok σ' → SSep σ'
  | [], i, σ, σ', s, h => by cases h; exact s
  | p :: ps, i, σ, σ', s, h => by
    simp only [signAutoLoop] at h
    obtain ⟨σ1, h1, h2⟩ := Res.bind_eq_ok.1 h
    refine ssep_signAutoLoop H ps (i + 1) ?_ h2
    unfold signAutoStep at h1
    obtain ⟨x, -, h1⟩ := Res.bind_eq_ok.1 h1
    obtain ⟨y, -, h1⟩ := Res.bind_eq_ok.1 h1
    have key : ∀ {c : Prop} [Decidable c], (if c then (do let o ← InternalSign H σ sg (UInt32.ofNat i) t; pure o.1) else Res.ok σ) = .ok σ1 → SSep σ1 := by
      intro c _ hc
      split at hc
      · obtain ⟨⟨σ2, e⟩, h3, hc⟩ := Res.bind_eq_ok.1 hc
        cases hc
        exact ssep_internalSign H s h3
      · cases hc; exact s
    split at h1
    · cases h1
    · exact key h1

theorem ssep_assign {σ σ' : Store} (s : SSep σ) {t : Nat} {e : Except String Ref} {r : Except String Unit} (h : assign t (σ, e) = .ok (σ', r)) : SSep σ' := by
  cases e with
  | error e => cases h; exact s
  | ok r =>
    simp only [assign] at h
    obtain ⟨o, -, h⟩ := Res.bind_eq_ok.1 h
    cases h
    exact s.same rfl rfl rfl

theorem orKeep_ok {α : Type} {a b : α} {r : Res α} (h : orKeep a r = .ok b) : r = .ok b ∨ (∃ e, r = .err e) ∧ a = b := by
  cases r with
  | ok x => left; exact h
  | err e => right; cases h; exact ⟨⟨e, rfl⟩, rfl⟩
  | panic => cases h

theorem ssep_call (H : HashFns) (g : Nat → Nat) {σ σ' : Store} (s : SSep σ) (c : Call) (hc : (Step.call c).built) (h : c.run H g σ = .ok σ') : SSep σ' := by
  cases c with
  | parse b => exact hc.elim
  | new => cases h; exact s.same rfl rfl rfl
  | signer x => cases h; exact s.same rfl rfl rfl
  | addInput t i => exact ssep_addInput (ssep_mkInput s i) h
  | addOutput t o => exact ssep_addOutput (ssep_mkOutput s o) h
  | «from» t txID vout scr sat =>
    obtain ⟨o, -, h⟩ := Res.bind_eq_ok.1 h
    rcases orKeep_ok h with h | ⟨-, rfl⟩
    · obtain ⟨b, -, h⟩ := Res.bind_eq_ok.1 h
      exact ssep_addInput (ssep_mkInput s _) h
    · exact s
  | payTo t addr sat =>
    obtain ⟨o, -, h⟩ := Res.bind_eq_ok.1 h
    rcases orKeep_ok h with h | ⟨-, rfl⟩
    · obtain ⟨b, -, h⟩ := Res.bind_eq_ok.1 h
      exact ssep_addOutput (ssep_mkOutput s _) h
    · exact s
  | apply t idx b =>
    rcases orKeep_ok h with h | ⟨-, rfl⟩
    · exact ssep_apply s h
    · exact s
  | sign t idx sg =>
    obtain ⟨⟨σ1, e⟩, h1, h⟩ := Res.bind_eq_ok.1 h
    cases h
    simp only [Sign, internal] at h1
    obtain ⟨⟨σ2, e2⟩, h2, h1⟩ := Res.bind_eq_ok.1 h1
    exact ssep_assign (ssep_internalSign H s h2) h1
  | signAuto t sg =>
    obtain ⟨⟨σ1, e⟩, h1, h⟩ := Res.bind_eq_ok.1 h
    cases h
    simp only [SignAuto, internal] at h1
    obtain ⟨⟨σ2, e2⟩, h2, h1⟩ := Res.bind_eq_ok.1 h1
    refine ssep_assign ?_ h1
    unfold InternalSignAuto at h2
    obtain ⟨a, -, h2⟩ := Res.bind_eq_ok.1 h2
    obtain ⟨x, -, h2⟩ := Res.bind_eq_ok.1 h2
    obtain ⟨σ3, h3, h2⟩ := Res.bind_eq_ok.1 h2
    cases h2
    exact ssep_signAutoLoop H _ _ (σ := defaultFlag σ sg a) (s.same rfl rfl rfl) h3

theorem empty_ssep : SSep Store.empty := ⟨fun a k h => by cases a <;> simp [slotRef, Store.empty] at h, fun a b k h => by cases a <;> simp [slotRef, Store.empty] at h⟩

/-! ## What a longer script shows -/

/-- What a field shows: `b'` if it holds script `k`, else what it showed. -/
def swap (k : Nat) (b' : Bytes) (r : Ref) (x : Option Bytes) : Option Bytes := if r = some k then some b' else x

theorem sees_swap {σ : Store} {k : Nat} (hk : k < σ.scripts.length) (b' : Bytes) {r : Ref} {x : Option Bytes} (h : seesScript σ r x) :
    seesScript { σ with scripts := σ.scripts.set k b' } r (swap k b' r x) := by
  cases r with
  | none => exact h
  | some n =>
    by_cases e : n = k
    · subst e
      exact ⟨by simp [swap], by simp [swap, List.getElem?_set_self hk]⟩
    · obtain ⟨v, rfl, hv⟩ := seesScript_some h
      have : ¬ (some n = some k) := by simpa using e
      refine ⟨by simp [swap, e], ?_⟩
      simp only [swap, if_neg this]
      rw [List.getElem?_set_ne (Ne.symm e)]; exact hv

end Verif.Obj
