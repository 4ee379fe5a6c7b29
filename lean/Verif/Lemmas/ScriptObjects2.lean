import Verif.Lemmas.ScriptObjects
/-!
# Output objects in one place each; the effect of an append; programs that append
-/
namespace Verif.Obj
open Verif

/-! ## Outputs -/

/-- No output object is in two places. -/
def OSep (σ : Store) : Prop :=
  ∀ (k : Nat) (t : TxObj) (j k' : Nat) (t' : TxObj) (j' n : Nat), σ.txs[k]? = some t → σ.txs[k']? = some t' → (σ.refs t.Outputs)[j]? = some (some n) →
    (σ.refs t'.Outputs)[j']? = some (some n) → k = k' ∧ j = j'

theorem OSep.same {σ σ' : Store} (s : OSep σ) (h1 : σ'.txs = σ.txs) (h2 : σ'.arrays = σ.arrays) : OSep σ' := by
  unfold OSep Store.refs at *
  rw [h1, h2]; exact s

theorem Sim.output_lt {σ : Store} {v : Values} (s : Sim σ v) {k j n : Nat} {o : TxObj} (h : σ.txs[k]? = some o) (hj : (σ.refs o.Outputs)[j]? = some (some n)) :
    n < σ.outputs.length := by
  obtain ⟨T, -, o', ho', -, -, -, -, -, hi⟩ := s.obj h
  rw [h] at ho'; cases ho'
  rcases forall₂_getElem? hi j with ⟨h1, -⟩ | ⟨a, b, h1, -, h3⟩
  · rw [h1] at hj; cases hj
  · rw [h1] at hj; cases hj
    obtain ⟨m, i, e, hm, -⟩ := h3
    cases e
    exact (List.getElem?_eq_some_iff.1 hm).1

theorem osep_newTx {σ : Store} (s : OSep σ) (x : TxObj) (hx : x.Outputs = ⟨0, 0, 0⟩) : OSep (σ.newTx x).1 := by
  have hr : (σ.newTx x).1.refs x.Outputs = [] := by rw [hx]; exact refs_nil _
  intro k u j k' u' j' m hu hu' hj hj'
  rcases getElem?_snoc hu with h | ⟨-, rfl⟩
  · rcases getElem?_snoc hu' with h' | ⟨-, rfl⟩
    · exact s k u j k' u' j' m h h' hj hj'
    · rw [hr] at hj'; simp at hj'
  · rw [hr] at hj; simp at hj

theorem osep_addInput {g : Nat → Nat} {σ σ' : Store} {v : Values} (s : Sim σ v) (o : OSep σ) {t : Nat} {p : Ref} (h : AddInput g σ t p = .ok σ') : OSep σ' := by
  unfold AddInput at h
  obtain ⟨x, hx, h⟩ := Res.bind_eq_ok.1 h
  have hx' : σ.txs[t]? = some x := index_ok.1 hx
  have P := pushed g s.sep hx' false p
  have ht : t < σ.txs.length := (List.getElem?_eq_some_iff.1 hx').1
  generalize hσ : ((σ.append g (x.slice false) p).1.setTx t (x.setSlice (σ.append g (x.slice false) p).2 false)) = σ1 at P
  have hgoal : ((σ.append g x.Inputs p).1.setTx t { x with Inputs := (σ.append g x.Inputs p).2 }) = σ1 := hσ
  have h : (.ok σ1 : Res Store) = .ok σ' := by rw [← hgoal]; exact h
  cases h
  obtain ⟨s', hs', hr'⟩ := P.txs
  have old : ∀ (k : Nat) (u : TxObj), σ'.txs[k]? = some u → ∃ u0, σ.txs[k]? = some u0 ∧ σ'.refs u.Outputs = σ.refs u0.Outputs := by
    intro k u hu
    by_cases e : t = k
    · subst e
      rw [hs', List.getElem?_set_self ht] at hu
      cases hu
      exact ⟨x, hx', P.same t x true hx' (Or.inr (by decide))⟩
    · rw [hs', List.getElem?_set_ne e] at hu
      exact ⟨u, hu, P.same k u true hu (Or.inl (Ne.symm e))⟩
  intro k u j k' u' j' m hu hu' hj hj'
  obtain ⟨u0, h0, e0⟩ := old k u hu
  obtain ⟨u1, h1, e1⟩ := old k' u' hu'
  rw [e0] at hj; rw [e1] at hj'
  exact o k u0 j k' u1 j' m h0 h1 hj hj'

theorem osep_addOutput {g : Nat → Nat} {σ σ' : Store} {v : Values} (s : Sim σ v) (o : OSep σ) {t n : Nat}
    (hn : ∀ (k : Nat) (x : TxObj) (j : Nat), σ.txs[k]? = some x → (σ.refs x.Outputs)[j]? ≠ some (some n)) (h : AddOutput g σ t (some n) = .ok σ') : OSep σ' := by
  unfold AddOutput at h
  obtain ⟨x, hx, h⟩ := Res.bind_eq_ok.1 h
  have hx' : σ.txs[t]? = some x := index_ok.1 hx
  have P := pushed g s.sep hx' true (some n)
  have ht : t < σ.txs.length := (List.getElem?_eq_some_iff.1 hx').1
  generalize hσ : ((σ.append g (x.slice true) (some n)).1.setTx t (x.setSlice (σ.append g (x.slice true) (some n)).2 true)) = σ1 at P
  have hgoal : ((σ.append g x.Outputs (some n)).1.setTx t { x with Outputs := (σ.append g x.Outputs (some n)).2 }) = σ1 := hσ
  have h : (.ok σ1 : Res Store) = .ok σ' := by rw [← hgoal]; exact h
  cases h
  obtain ⟨s', hs', hr'⟩ := P.txs
  have old : ∀ (k : Nat) (u : TxObj) (j m : Nat), σ'.txs[k]? = some u → (σ'.refs u.Outputs)[j]? = some (some m) →
      (∃ u0, σ.txs[k]? = some u0 ∧ (σ.refs u0.Outputs)[j]? = some (some m)) ∨ (k = t ∧ j = (σ.refs x.Outputs).length ∧ m = n) := by
    intro k u j m hu hj
    by_cases e : t = k
    · subst e
      rw [hs', List.getElem?_set_self ht] at hu
      cases hu
      have hj' : (σ.refs x.Outputs ++ [some n])[j]? = some (some m) := by
        have : σ'.refs s' = σ.refs x.Outputs ++ [some n] := hr'
        rw [← this]; exact hj
      by_cases hlt : j < (σ.refs x.Outputs).length
      · left
        rw [List.getElem?_append_left hlt] at hj'
        exact ⟨x, hx', hj'⟩
      · right
        rw [List.getElem?_append_right (by omega)] at hj'
        obtain ⟨h1, h2⟩ := List.getElem?_eq_some_iff.1 hj'
        have hz : j - (σ.refs x.Outputs).length = 0 := by simpa using h1
        refine ⟨rfl, by omega, ?_⟩
        simp only [hz, List.getElem_cons_zero] at h2
        cases h2; rfl
    · left
      rw [hs', List.getElem?_set_ne e] at hu
      have : σ'.refs u.Outputs = σ.refs u.Outputs := P.same k u true hu (Or.inl (Ne.symm e))
      rw [this] at hj
      exact ⟨u, hu, hj⟩
  intro k u j k' u' j' m hu hu' hj hj'
  rcases old k u j m hu hj with ⟨u0, h0, hj0⟩ | ⟨rfl, rfl, rfl⟩
  · rcases old k' u' j' m hu' hj' with ⟨u1, h1, hj1⟩ | ⟨rfl, rfl, rfl⟩
    · exact o k u0 j k' u1 j' m h0 h1 hj0 hj1
    · exact absurd hj0 (hn k u0 j h0)
  · rcases old k' u' j' m hu' hj' with ⟨u1, h1, hj1⟩ | ⟨rfl, rfl, -⟩
    · exact absurd hj1 (hn k' u1 j' h1)
    · exact ⟨rfl, rfl⟩

theorem osep_apply {σ σ' : Store} (s : OSep σ) {t : Nat} {idx : UInt32} {r : Ref} (h : ApplyUnlockingScript σ t idx r = .ok σ') : OSep σ' := by
  unfold ApplyUnlockingScript at h
  obtain ⟨o, ho, h⟩ := Res.bind_eq_ok.1 h
  obtain ⟨p, hp, h⟩ := Res.bind_eq_ok.1 h
  cases p with
  | none => cases h
  | some n =>
    obtain ⟨q, hq, h⟩ := Res.bind_eq_ok.1 h
    cases h
    exact s.same rfl rfl

/-- Signing leaves transactions and slices, and returns the transaction it was given. -/
theorem internalSign_txs (H : HashFns) {σ σ' : Store} {sg t : Nat} {idx : UInt32} {e : Except String Ref} (h : InternalSign H σ sg idx t = .ok (σ', e)) :
    σ'.txs = σ.txs ∧ σ'.arrays = σ.arrays ∧ ∀ r, e = .ok r → r = some t := by
  unfold InternalSign at h
  obtain ⟨a, -, h⟩ := Res.bind_eq_ok.1 h
  simp only at h
  split at h
  · cases h
  · cases h; exact ⟨rfl, rfl, fun r hr => by cases hr⟩
  split at h
  · cases h
  · cases h; exact ⟨rfl, rfl, fun r hr => by cases hr⟩
  split at h
  · cases h
  · cases h; exact ⟨rfl, rfl, fun r hr => by cases hr⟩
  · rename_i hap
    cases h
    unfold ApplyUnlockingScript at hap
    obtain ⟨o, ho, hap⟩ := Res.bind_eq_ok.1 hap
    obtain ⟨p, hp, hap⟩ := Res.bind_eq_ok.1 hap
    cases p with
    | none => cases hap
    | some n =>
      obtain ⟨q, hq, hap⟩ := Res.bind_eq_ok.1 hap
      cases hap
      exact ⟨rfl, rfl, fun r hr => by cases hr; rfl⟩

theorem signAutoLoop_txs (H : HashFns) {sg : Nat} {a : InternalSigner} {t : Nat} : ∀ (ps : List Ref) (i : Nat) {σ σ' : Store}, signAutoLoop H sg a t i ps σ = .ok σ' →
    σ'.txs = σ.txs ∧ σ'.arrays = σ.arrays
  | [], i, σ, σ', h => by cases h; exact ⟨rfl, rfl⟩
  | p :: ps, i, σ, σ', h => by
    simp only [signAutoLoop] at h
    obtain ⟨σ1, h1, h2⟩ := Res.bind_eq_ok.1 h
    obtain ⟨e1, e2⟩ := signAutoLoop_txs H ps (i + 1) h2
    have : σ1.txs = σ.txs ∧ σ1.arrays = σ.arrays := by
      unfold signAutoStep at h1
      obtain ⟨x, -, h1⟩ := Res.bind_eq_ok.1 h1
      obtain ⟨y, -, h1⟩ := Res.bind_eq_ok.1 h1
      have key : ∀ {c : Prop} [Decidable c], (if c then (do let o ← InternalSign H σ sg (UInt32.ofNat i) t; pure o.1) else Res.ok σ) = .ok σ1 →
          σ1.txs = σ.txs ∧ σ1.arrays = σ.arrays := by
        intro c _ hc
        split at hc
        · obtain ⟨⟨σ2, e⟩, h3, hc⟩ := Res.bind_eq_ok.1 hc
          cases hc
          exact ⟨(internalSign_txs H h3).1, (internalSign_txs H h3).2.1⟩
        · cases hc; exact ⟨rfl, rfl⟩
      split at h1
      · cases h1
      · exact key h1
    exact ⟨e1.trans this.1, e2.trans this.2⟩

theorem osep_assign {σ σ' : Store} (s : OSep σ) {t : Nat} {e : Except String Ref} {r : Except String Unit} (he : ∀ r, e = .ok r → r = some t)
    (h : assign t (σ, e) = .ok (σ', r)) : OSep σ' := by
  cases e with
  | error e => cases h; exact s
  | ok q =>
    cases he q rfl
    simp only [assign] at h
    obtain ⟨o, ho, h⟩ := Res.bind_eq_ok.1 h
    cases h
    rw [setTx_same (index_ok.1 ho)]; exact s

theorem osep_call (H : HashFns) (g : Nat → Nat) {σ σ' : Store} {v : Values} (s : Sim σ v) (o : OSep σ) (c : Call) (hc : (Step.call c).built) (h : c.run H g σ = .ok σ') : OSep σ' := by
  have fresh : ∀ (x : Output), ∀ t, AddOutput g (mkOutput σ x).1 t (mkOutput σ x).2 = .ok σ' → OSep σ' := by
    intro x t hx
    have e := ext_mkOutput σ x
    refine osep_addOutput (s.ext e) (o.same e.txs e.arrays) (n := σ.outputs.length) ?_ hx
    intro k u j hk hj
    rw [e.txs] at hk
    rw [e.refs] at hj
    exact absurd (s.output_lt hk hj) (lt_irrefl _)
  have freshIn : ∀ (x : Input), ∀ t, AddInput g (mkInput σ x).1 t (mkInput σ x).2 = .ok σ' → OSep σ' := by
    intro x t hx
    have e := ext_mkInput σ x
    exact osep_addInput (s.ext e) (o.same e.txs e.arrays) hx
  cases c with
  | parse b => exact hc.elim
  | new => cases h; exact osep_newTx o _ rfl
  | signer x => cases h; exact o.same rfl rfl
  | addInput t i => exact freshIn i t h
  | addOutput t x => exact fresh x t h
  | «from» t txID vout scr sat =>
    obtain ⟨_, -, h⟩ := Res.bind_eq_ok.1 h
    rcases orKeep_ok h with h | ⟨-, rfl⟩
    · obtain ⟨b, -, h⟩ := Res.bind_eq_ok.1 h
      exact freshIn _ t h
    · exact o
  | payTo t addr sat =>
    obtain ⟨_, -, h⟩ := Res.bind_eq_ok.1 h
    rcases orKeep_ok h with h | ⟨-, rfl⟩
    · obtain ⟨b, -, h⟩ := Res.bind_eq_ok.1 h
      exact fresh _ t h
    · exact o
  | apply t idx b =>
    rcases orKeep_ok h with h | ⟨-, rfl⟩
    · exact osep_apply (σ := (σ.newScript b).1) (o.same rfl rfl) h
    · exact o
  | sign t idx sg =>
    obtain ⟨⟨σ1, e⟩, h1, h⟩ := Res.bind_eq_ok.1 h
    cases h
    simp only [Sign, internal] at h1
    obtain ⟨⟨σ2, e2⟩, h2, h1⟩ := Res.bind_eq_ok.1 h1
    have k := internalSign_txs H h2
    exact osep_assign (o.same k.1 k.2.1) k.2.2 h1
  | signAuto t sg =>
    obtain ⟨⟨σ1, e⟩, h1, h⟩ := Res.bind_eq_ok.1 h
    cases h
    simp only [SignAuto, internal] at h1
    obtain ⟨⟨σ2, e2⟩, h2, h1⟩ := Res.bind_eq_ok.1 h1
    unfold InternalSignAuto at h2
    obtain ⟨a, -, h2⟩ := Res.bind_eq_ok.1 h2
    obtain ⟨x, -, h2⟩ := Res.bind_eq_ok.1 h2
    obtain ⟨σ3, h3, h2⟩ := Res.bind_eq_ok.1 h2
    cases h2
    have k := signAutoLoop_txs H _ _ h3
    exact osep_assign (o.same k.1 k.2) (fun r hr => by cases hr; rfl) h1

theorem empty_osep : OSep Store.empty := fun k t j k' t' j' n h => by simp [Store.empty] at h

/-! ## The effect of an append -/

/-- What an input shows after script object `k` was given the contents `b'`. -/
def swapIn (σ : Store) (k : Nat) (b' : Bytes) (p : Ref) (i : Input) : Input :=
  match p.bind (σ.inputs[·]?) with
  | some o => { i with PreviousTxScript := if o.PreviousTxScript = some k then some b' else i.PreviousTxScript,
                       UnlockingScript := if o.UnlockingScript = some k then some b' else i.UnlockingScript }
  | none => i

/-- What an output shows after script object `k` was given the contents `b'`. -/
def swapOut (σ : Store) (k : Nat) (b' : Bytes) (p : Ref) (x : Output) : Output :=
  match p.bind (σ.outputs[·]?) with
  | some o => { x with LockingScript := if o.LockingScript = some k then b' else x.LockingScript }
  | none => x

theorem forall₂_zipWith {α β : Type} {R S : α → β → Prop} {f : α → β → β} (hf : ∀ a b, R a b → S a (f a b)) {l : List α} {m : List β} (h : List.Forall₂ R l m) :
    List.Forall₂ S l (List.zipWith f l m) := by
  induction h with
  | nil => exact .nil
  | cons h _ ih => exact .cons (hf _ _ h) ih

theorem reads_swap {σ : Store} {k : Nat} (hk : k < σ.scripts.length) (b' : Bytes) {u : Nat} {x : TxObj} (hx : σ.txs[u]? = some x) {U : Transaction} (hU : Reads σ u U) :
    Reads { σ with scripts := σ.scripts.set k b' } u
      { U with Inputs := List.zipWith (swapIn σ k b') (σ.refs x.Inputs) U.Inputs, Outputs := List.zipWith (swapOut σ k b') (σ.refs x.Outputs) U.Outputs } := by
  obtain ⟨x', hx', w1, w2, hv, hl, hi, ho⟩ := hU
  rw [hx] at hx'; cases hx'
  refine ⟨x, hx, w1, w2, hv, hl, forall₂_zipWith ?_ hi, forall₂_zipWith ?_ ho⟩
  · rintro p i ⟨n, o, rfl, hn, h1, h2, h3, h4, h5, h6⟩
    refine ⟨n, o, rfl, hn, ?_⟩
    simp only [swapIn, Option.bind_some, hn]
    exact ⟨h1, h2, h3, sees_swap hk b' h4, sees_swap hk b' h5, h6⟩
  · rintro p y ⟨n, o, rfl, hn, h1, h2⟩
    refine ⟨n, o, rfl, hn, ?_⟩
    simp only [swapOut, Option.bind_some, hn]
    refine ⟨h1, ?_⟩
    have := sees_swap hk b' h2
    unfold swap at this
    split at this <;> rename_i e
    · rw [if_pos e]; exact this
    · rw [if_neg e]; exact this

/-! ## The calls -/

theorem encodeParts_panic (l : List Bytes) : EncodeParts l ≠ .panic := by
  induction l with
  | nil => simp [EncodeParts]
  | cons a l ih =>
    simp only [EncodeParts]
    split
    · intro h
      rcases Res.bind_eq_panic.1 h with h | ⟨x, -, h⟩
      · exact ih h
      · cases h
    · simp

theorem extend_some {σ : Store} {k : Nat} {b : Bytes} (h : σ.scripts[k]? = some b) (p : Bytes) : extend σ (some k) p = .ok { σ with scripts := σ.scripts.set k (b ++ p) } := by
  simp only [extend, Store.script, index_some h, Res.ok_bind]; rfl

theorem call_some {σ : Store} {k : Nat} {b : Bytes} (h : σ.scripts[k]? = some b) (p : Piece) :
    p.call σ (some k) = (p.onto b >>= fun b' => .ok { σ with scripts := σ.scripts.set k b' }) := by
  cases p with
  | data d =>
    simp only [Piece.call, Piece.onto, AppendPushData, Verif.AppendPushData]
    cases EncodeParts [d] <;> simp [extend_some h]
  | hex d =>
    simp only [Piece.call, Piece.onto, AppendPushDataHexString, Verif.AppendPushDataHexString, AppendPushData, Verif.AppendPushData]
    cases hexDecodeRes d with
    | err e => rfl
    | panic => rfl
    | ok y => simp only [Res.ok_bind]; cases EncodeParts [y] <;> simp [extend_some h]
  | text d =>
    simp only [Piece.call, Piece.onto, AppendPushDataString, Verif.AppendPushDataString, AppendPushData, Verif.AppendPushData]
    cases EncodeParts [d] <;> simp [extend_some h]
  | array d =>
    simp only [Piece.call, Piece.onto, AppendPushDataArray, Verif.AppendPushDataArray]
    cases EncodeParts d <;> simp [extend_some h]
  | strings d =>
    simp only [Piece.call, Piece.onto, AppendPushDataStrings, Verif.AppendPushDataStrings, AppendPushDataArray, Verif.AppendPushDataArray]
    cases EncodeParts (d.map id) <;> simp [extend_some h]
  | op o =>
    simp only [Piece.call, Piece.onto, AppendOpCode, Verif.AppendOpCode, Res.ok_bind, extend_some h]

theorem hexDecodeRes_panic (s : Bytes) : hexDecodeRes s ≠ .panic := by
  unfold hexDecodeRes; split <;> simp

theorem onto_panic (p : Piece) (b : Script) : p.onto b ≠ .panic := by
  have enc : ∀ l, (EncodeParts l >>= fun x => (.ok (b ++ x) : Res Script)) ≠ .panic := by
    intro l h
    rcases Res.bind_eq_panic.1 h with h | ⟨x, -, h⟩
    · exact encodeParts_panic _ h
    · cases h
  cases p with
  | data d => exact enc _
  | hex d =>
    intro h
    rcases Res.bind_eq_panic.1 h with h | ⟨x, -, h⟩
    · exact hexDecodeRes_panic _ h
    · exact enc _ h
  | text d => exact enc _
  | array d => exact enc _
  | strings d => exact enc _
  | op o => simp [Piece.onto]

theorem call_none (σ : Store) (p : Piece) :
    p.call σ none = match p.onto [] with
      | .err e => .err e
      | _ => .panic := by
  cases p with
  | data d =>
    simp only [Piece.call, Piece.onto, AppendPushData, Verif.AppendPushData]
    cases EncodeParts [d] <;> rfl
  | hex d =>
    simp only [Piece.call, Piece.onto, AppendPushDataHexString, Verif.AppendPushDataHexString, AppendPushData, Verif.AppendPushData]
    cases hexDecodeRes d with
    | err e => rfl
    | panic => rfl
    | ok y => simp only [Res.ok_bind]; cases EncodeParts [y] <;> rfl
  | text d =>
    simp only [Piece.call, Piece.onto, AppendPushDataString, Verif.AppendPushDataString, AppendPushData, Verif.AppendPushData]
    cases EncodeParts [d] <;> rfl
  | array d =>
    simp only [Piece.call, Piece.onto, AppendPushDataArray, Verif.AppendPushDataArray]
    cases EncodeParts d <;> rfl
  | strings d =>
    simp only [Piece.call, Piece.onto, AppendPushDataStrings, Verif.AppendPushDataStrings, AppendPushDataArray, Verif.AppendPushDataArray]
    cases EncodeParts (d.map id) <;> rfl
  | op o => rfl

/-- A call on a pointer that shows `x`. -/
theorem call_sees {σ : Store} {r : Ref} {x : Option Bytes} (h : seesScript σ r x) (p : Piece) :
    (p.call σ r = .panic ∧ p.onto? x = .panic) ∨ (∃ e, p.call σ r = .err e ∧ p.onto? x = .err e) ∨
    ∃ k b', r = some k ∧ k < σ.scripts.length ∧ p.call σ r = .ok { σ with scripts := σ.scripts.set k b' } ∧ p.onto? x = .ok b' := by
  cases r with
  | none =>
    have hx : x = none := h
    subst hx
    rw [call_none]
    simp only [Piece.onto?]
    cases p.onto [] with
    | err e => exact Or.inr (Or.inl ⟨e, rfl, rfl⟩)
    | ok _ => exact Or.inl ⟨rfl, rfl⟩
    | panic => exact Or.inl ⟨rfl, rfl⟩
  | some k =>
    obtain ⟨b, rfl, hb⟩ := seesScript_some h
    rw [call_some hb]
    simp only [Piece.onto?]
    cases p.onto b with
    | err e => exact Or.inr (Or.inl ⟨e, rfl, rfl⟩)
    | ok b' => exact Or.inr (Or.inr ⟨k, b', rfl, (List.getElem?_eq_some_iff.1 hb).1, rfl, rfl⟩)
    | panic => exact Or.inl ⟨rfl, rfl⟩

end Verif.Obj
