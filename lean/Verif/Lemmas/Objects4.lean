import Verif.Lemmas.Objects3
/-!
# Changing an input object; signing; histories
-/
namespace Verif.Obj
open Verif

theorem forall₂_of_getElem? {α β : Type} {R : α → β → Prop} : ∀ {l : List α} {m : List β}, l.length = m.length →
    (∀ (n : Nat) a b, l[n]? = some a → m[n]? = some b → R a b) → List.Forall₂ R l m
  | [], [], _, _ => .nil
  | [], _ :: _, h, _ => by simp at h
  | _ :: _, [], h, _ => by simp at h
  | a :: l, b :: m, h, hR => .cons (hR 0 a b rfl rfl) (forall₂_of_getElem? (by simpa using h) fun n x y hx hy => hR (n + 1) x y (by simpa using hx) (by simpa using hy))

/-- What pointer `p` shows after input object `k` got the unlocking script `s`. -/
theorem seesInput_set {σ : Store} {k : Nat} {o : InputObj} (ho : σ.inputs[k]? = some o) {r : Ref} {b : Option Bytes} (hs : seesScript σ r b) {p : Ref} {i : Input}
    (h : seesInput σ p i) :
    seesInput (σ.setInput k { o with UnlockingScript := r }) p (if p = some k then { i with UnlockingScript := b } else i) := by
  have hk : k < σ.inputs.length := (List.getElem?_eq_some_iff.1 ho).1
  obtain ⟨n, q, rfl, hq, h1, h2, h3, h4, h5, h6⟩ := h
  by_cases e : n = k
  · subst e
    rw [hq] at ho; cases ho
    rw [if_pos rfl]
    exact ⟨n, { o with UnlockingScript := r }, rfl, by simp only [Store.setInput, List.getElem?_set_self hk], h1, h2, h3, h4, hs, h6⟩
  · rw [if_neg (by simpa using e)]
    exact ⟨n, q, rfl, by simp only [Store.setInput, List.getElem?_set_ne (Ne.symm e), hq], h1, h2, h3, h4, h5, h6⟩

/-- Every transaction after an input object got another unlocking script: exactly the positions that hold this object change. -/
theorem reads_set {σ : Store} {k : Nat} {o : InputObj} (ho : σ.inputs[k]? = some o) {r : Ref} {b : Option Bytes} (hs : seesScript σ r b) {u : Nat} {x : TxObj}
    (hx : σ.txs[u]? = some x) {U : Transaction} (h : Reads σ u U) :
    Reads (σ.setInput k { o with UnlockingScript := r }) u
      { U with Inputs := List.zipWith (fun p i => if p = some k then { i with UnlockingScript := b } else i) (σ.refs x.Inputs) U.Inputs } := by
  obtain ⟨x', hx', w1, w2, hv, hl, hi, hos⟩ := h
  rw [hx] at hx'; cases hx'
  refine ⟨x, hx, w1, w2, hv, hl, ?_, hos⟩
  have hlen := hi.length_eq
  refine forall₂_of_getElem? (by rw [List.length_zipWith, ← hlen, Nat.min_self]; rfl) ?_
  intro n a c ha hc
  have ha' : (σ.refs x.Inputs)[n]? = some a := ha
  rcases forall₂_getElem? hi n with ⟨e1, -⟩ | ⟨p, i, e1, e2, hpi⟩
  · rw [e1] at ha'; cases ha'
  · rw [e1] at ha'; cases ha'
    rw [List.getElem?_zipWith, e1, e2] at hc
    cases hc
    exact seesInput_set ho hs hpi

theorem apply_sim {σ : Store} {v : Values} (s : Sim σ v) {t : Nat} {T : Transaction} (hT : v.txs[t]? = some T) (idx : UInt32) {r : Ref} {b : Bytes}
    (hs : seesScript σ r (some b)) :
    (ApplyUnlockingScript σ t idx r = .panic ∧ T.ApplyUnlockingScript idx b = .panic) ∨
    ∃ σ' T', ApplyUnlockingScript σ t idx r = .ok σ' ∧ T.ApplyUnlockingScript idx b = .ok T' ∧ Sim σ' { v with txs := v.txs.set t T' } := by
  obtain ⟨o, ho, w1, w2, hv, hl, hi, hos⟩ := s.reads t T hT
  unfold ApplyUnlockingScript Transaction.ApplyUnlockingScript
  simp only [Store.tx, index_some ho, Res.ok_bind]
  rcases forall₂_getElem? hi idx.toNat with ⟨h1, h2⟩ | ⟨p, i, h1, h2, h3⟩
  · left; rw [index_none h1, index_none h2]; exact ⟨rfl, rfl⟩
  right
  rw [index_some h1, index_some h2]
  obtain ⟨k, q, rfl, hq, -⟩ := id h3
  simp only [Res.ok_bind, Store.input, index_some hq]
  refine ⟨_, _, rfl, rfl, ?_⟩
  have hto : t < v.txs.length := (List.getElem?_eq_some_iff.1 hT).1
  refine ⟨by simp only [List.length_set]; exact s.len, ?_, ⟨s.sep.wf, s.sep.arrays, s.sep.inputs⟩, s.signers⟩
  intro u U hU
  by_cases e : t = u
  · subst e
    simp only at hU
    rw [List.getElem?_set_self hto] at hU
    cases hU
    have R := reads_set hq hs ho (s.reads t T hT)
    have E : List.zipWith (fun p i => if p = some k then { i with UnlockingScript := some b } else i) (σ.refs o.Inputs) T.Inputs =
        T.Inputs.set idx.toNat { i with UnlockingScript := some b } := by
      apply List.ext_getElem?
      intro n
      rw [List.getElem?_zipWith]
      rcases forall₂_getElem? hi n with ⟨e1, e2⟩ | ⟨p, j, e1, e2, hpj⟩
      · have : T.Inputs.length ≤ n := List.getElem?_eq_none_iff.1 e2
        rw [e1, e2, List.getElem?_eq_none_iff.2 (by rw [List.length_set]; exact this)]
      · have hn : n < T.Inputs.length := (List.getElem?_eq_some_iff.1 e2).1
        rw [e1, e2]
        by_cases en : idx.toNat = n
        · subst en
          rw [h1] at e1; cases e1
          rw [h2] at e2; cases e2
          rw [List.getElem?_set_self hn]
          simp
        · rw [List.getElem?_set_ne en, e2]
          have : p ≠ some k := by
            intro hp
            subst hp
            exact en (s.sep.inputs t o idx.toNat t o n k ho ho h1 e1).2
          simp [this]
    rw [E] at R
    exact R
  · simp only at hU
    rw [List.getElem?_set_ne e] at hU
    obtain ⟨x, hx, -⟩ := id (s.reads u U hU)
    have R := reads_set hq hs hx (s.reads u U hU)
    have E : List.zipWith (fun p i => if p = some k then { i with UnlockingScript := some b } else i) (σ.refs x.Inputs) U.Inputs = U.Inputs := by
      obtain ⟨x', hx', -, -, -, -, hi', -⟩ := s.reads u U hU
      rw [hx] at hx'; cases hx'
      apply List.ext_getElem?
      intro n
      rw [List.getElem?_zipWith]
      rcases forall₂_getElem? hi' n with ⟨e1, e2⟩ | ⟨p, j, e1, e2, hpj⟩
      · rw [e1, e2]
      · rw [e1, e2]
        have : p ≠ some k := by
          intro hp
          subst hp
          exact e (s.sep.inputs t o idx.toNat u x n k ho hx h1 e1).1
        simp [this]
    rw [E] at R
    exact R

/-! ## Signers -/

theorem norm_eq {a b : InternalSigner} (h : norm a = norm b) : a.sign = b.sign ∧ a.pubKey = b.pubKey ∧ a.effFlag = b.effFlag := by
  unfold norm at h
  have h1 := congrArg InternalSigner.sign h
  have h2 := congrArg InternalSigner.pubKey h
  have h3 := congrArg InternalSigner.SigHashFlag h
  exact ⟨h1, h2, h3⟩

theorem effFlag_idem (s : InternalSigner) : (norm s).effFlag = s.effFlag := by
  unfold norm InternalSigner.effFlag
  simp only
  split
  · rfl
  · rfl

theorem norm_norm (s : InternalSigner) : norm (norm s) = norm s := by
  have := effFlag_idem s
  unfold norm at this ⊢
  rw [this]

theorem Sim.signer {σ : Store} {v : Values} (s : Sim σ v) (sg : Nat) :
    (σ.signers[sg]? = none ∧ v.signers[sg]? = none) ∨ ∃ a b, σ.signers[sg]? = some a ∧ v.signers[sg]? = some b ∧ norm a = norm b := by
  have h := congrArg (·[sg]?) s.signers
  simp only [List.getElem?_map] at h
  cases ha : σ.signers[sg]? with
  | none =>
    left
    rw [ha] at h
    cases hb : v.signers[sg]? with
    | none => exact ⟨rfl, rfl⟩
    | some b => rw [hb] at h; cases h
  | some a =>
    right
    rw [ha] at h
    cases hb : v.signers[sg]? with
    | none => rw [hb] at h; cases h
    | some b =>
      rw [hb] at h
      exact ⟨a, b, rfl, rfl, by simpa using h⟩

theorem default_sim {σ : Store} {v : Values} (s : Sim σ v) {sg : Nat} {a : InternalSigner} (ha : σ.signers[sg]? = some a) : Sim (defaultFlag σ sg a) v := by
  refine ⟨s.len, s.reads, ⟨s.sep.wf, s.sep.arrays, s.sep.inputs⟩, ?_⟩
  rw [← s.signers]
  show (σ.signers.set sg (norm a)).map norm = _
  apply List.ext_getElem?
  intro n
  rw [List.getElem?_map, List.getElem?_map]
  by_cases e : sg = n
  · subst e
    rw [List.getElem?_set_self (List.getElem?_eq_some_iff.1 ha).1, ha]
    simp [norm_norm]
  · rw [List.getElem?_set_ne e]

theorem apply_no_err (T : Transaction) (idx : UInt32) (b : Bytes) (e : String) : T.ApplyUnlockingScript idx b ≠ .err e := by
  unfold Transaction.ApplyUnlockingScript
  unfold index
  split <;> simp

/-- `InternalSigner.Sign` on the store is `Sign` on values; errors leave the values. -/
theorem internalSign_sim (H : HashFns) {σ : Store} {v : Values} (s : Sim σ v) {t : Nat} {T : Transaction} (hT : v.txs[t]? = some T) (idx : UInt32) {sg : Nat}
    {a b : InternalSigner} (ha : σ.signers[sg]? = some a) (hab : norm a = norm b) :
    (InternalSign H σ sg idx t = .panic ∧ b.Sign H idx T = .panic) ∨
    (∃ σ' e, InternalSign H σ sg idx t = .ok (σ', .error e) ∧ b.Sign H idx T = .err e ∧ Sim σ' v) ∨
    ∃ σ' T', InternalSign H σ sg idx t = .ok (σ', .ok (some t)) ∧ b.Sign H idx T = .ok T' ∧ Sim σ' { v with txs := v.txs.set t T' } := by
  obtain ⟨e1, e2, e3⟩ := norm_eq hab
  have s1 := default_sim s ha
  unfold InternalSign InternalSigner.Sign
  simp only [index_some ha, Res.ok_bind]
  rw [signatureHash_eq H (s1.reads t T hT), e1, e2, e3]
  cases hsh : T.GetInputSignatureHash H idx b.effFlag with
  | panic => left; exact ⟨rfl, rfl⟩
  | err e => right; left; exact ⟨_, e, rfl, rfl, s1⟩
  | ok sh =>
    simp only [Res.ok_bind]
    cases hsig : b.sign (ReverseBytes sh) with
    | panic => left; exact ⟨rfl, rfl⟩
    | err e => right; left; exact ⟨_, e, rfl, rfl, s1⟩
    | ok sig =>
      simp only [Res.ok_bind]
      have s2 := s1.ext (ext_newScript (defaultFlag σ sg a) (NewP2PKHUnlockingScript b.pubKey sig b.effFlag).1)
      rcases apply_sim s2 hT idx (sees_newScript _ _) with ⟨h1, h2⟩ | ⟨σ', T', h1, h2, h3⟩
      · left; rw [h1, h2]; exact ⟨rfl, rfl⟩
      · right; right; rw [h1, h2]; exact ⟨σ', T', rfl, rfl, h3⟩

theorem internalSign_signer (H : HashFns) {σ σ' : Store} {sg : Nat} {idx : UInt32} {t : Nat} {x : Except String Ref} {a b : InternalSigner}
    (ha : σ.signers[sg]? = some a) (hab : norm a = norm b) (h : InternalSign H σ sg idx t = .ok (σ', x)) :
    (∃ a', σ'.signers[sg]? = some a' ∧ norm a' = norm b) ∧ σ'.arrays = σ.arrays ∧ σ'.txs = σ.txs := by
  have hl := (List.getElem?_eq_some_iff.1 ha).1
  have hn : (σ.signers.set sg (norm a))[sg]? = some (norm a) := List.getElem?_set_self hl
  have hne : norm (norm a) = norm b := by rw [norm_norm, hab]
  unfold InternalSign at h
  simp only [index_some ha, Res.ok_bind] at h
  split at h
  · cases h
  · cases h; exact ⟨⟨norm a, hn, hne⟩, rfl, rfl⟩
  · split at h
    · cases h
    · cases h; exact ⟨⟨norm a, hn, hne⟩, rfl, rfl⟩
    · split at h
      · cases h
      · cases h; exact ⟨⟨norm a, hn, hne⟩, rfl, rfl⟩
      · rename_i hap
        cases h
        unfold ApplyUnlockingScript at hap
        obtain ⟨o, ho, hap⟩ := Res.bind_eq_ok.1 hap
        obtain ⟨p, hp, hap⟩ := Res.bind_eq_ok.1 hap
        split at hap
        · cases hap
        · obtain ⟨i, hi, hap⟩ := Res.bind_eq_ok.1 hap
          cases hap
          exact ⟨⟨norm a, hn, hne⟩, rfl, rfl⟩

end Verif.Obj
