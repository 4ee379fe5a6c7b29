import Verif.Lemmas.Concurrent
import Verif.Props.Spend
/-!
# C87–C89: goroutines that sign inputs of one transaction
-/
namespace Verif.Conc
open Verif Spec Props

variable (H : HashFns)

theorem writes_unique {S : List InternalSigner} {tx : Transaction} {j : Nat × Job} {k : Nat} {s s' : Bytes} (hk : k < tx.Inputs.length)
    (h : Writes H S tx j k s) (h' : Writes H S tx j k s') : s = s' := by
  obtain ⟨a, ha, -, h1⟩ := h
  obtain ⟨b, hb, -, h2⟩ := h'
  rw [ha] at hb; cases hb
  rw [h1] at h2; injection h2 with h2
  exact withUnlocking_inj hk h2

theorem writes_lt {S : List InternalSigner} {tx : Transaction} {j : Nat × Job} {k : Nat} {s : Bytes} (h : Writes H S tx j k s) : k < tx.Inputs.length := by
  obtain ⟨g, ⟨m, idx⟩ | m⟩ := j
  · obtain ⟨a, ha, h0, h1⟩ := h
    cases h0
    rw [ofNat_toNat] at h1
    exact sign_inRange H h1
  · obtain ⟨a, ha, ⟨i, -, hi, -⟩, h1⟩ := h
    exact (List.getElem?_eq_some_iff.1 hi).1

/-- Every call has a signer. -/
def HaveSigners (S : List InternalSigner) (jobs : List (Nat × Job)) : Prop := ∀ j ∈ jobs, j.1 < S.length

theorem inv (tx : Transaction) (S : List InternalSigner) (jobs : List (Nat × Job)) (hs : Sized tx) (hj : HaveSigners S jobs) (sch : List Nat) :
    Inv H tx S jobs (run H (start tx S jobs) sch) := (Inv.start H tx S hj).run H tx S hs sch

/-! ## C87 -/

/-- C87, at any moment of any schedule (also if a goroutine has panicked): the transaction differs from the initial one only in unlocking scripts; each input's is the initial one or
one that some of the calls gives it when made alone on the initial transaction; the signers differ from the initial ones only in flags, 0 having become ALL|FORKID. -/
theorem C87_always (tx : Transaction) (S : List InternalSigner) (jobs : List (Nat × Job)) (hs : Sized tx) (hj : HaveSigners S jobs) (sch : List Nat) :
    SameButUnlocking tx (run H (start tx S jobs) sch).shared.tx ∧
    (∀ (k : Nat) (i i' : Input), tx.Inputs[k]? = some i → (run H (start tx S jobs) sch).shared.tx.Inputs[k]? = some i' →
      i' = i ∨ ∃ j ∈ jobs, ∃ s, Writes H S tx j k s ∧ i' = { i with UnlockingScript := some s }) ∧
    (run H (start tx S jobs) sch).shared.signers.length = S.length ∧
    ∀ (g : Nat) (a : InternalSigner), S[g]? = some a → ∃ f, (run H (start tx S jobs) sch).shared.signers[g]? = some { a with SigHashFlag := f } ∧
      (f = a.SigHashFlag ∨ (a.SigHashFlag = 0 ∧ f = 0x41)) := by
  have I := inv H tx S jobs hs hj sch
  refine ⟨I.same, fun k i i' hi hi' => ?_, I.rel.1, fun g a ha => ?_⟩
  · have u := I.unlocking k
    unfold UnlockingOk at u
    split at u
    · have := u i hi
      rw [hi'] at this; injection this with this; exact Or.inl this
    · obtain ⟨j, s, hjob, hw, i0, h0, h1⟩ := u
      rw [hi] at h0; cases h0
      rw [hi'] at h1; injection h1 with h1
      exact Or.inr ⟨j, List.mem_of_getElem? hjob, s, hw, h1⟩
  · obtain ⟨f, hf, h⟩ := I.rel.2 g a ha
    refine ⟨f, hf, ?_⟩
    rcases h with h | h
    · exact Or.inl h
    · unfold flagOrDefault at h
      split_ifs at h with h0
      · exact Or.inr ⟨h0, h⟩
      · exact Or.inl h

/-- C87, when every goroutine has returned: an input that no call writes is unchanged, any other input has the script of the goroutine that wrote it last, which is the one that
goroutine's call gives it alone; each goroutine got the error it gets alone; the signers in use have their defaulted flag and the others are unchanged. -/
theorem C87_finished (tx : Transaction) (S : List InternalSigner) (jobs : List (Nat × Job)) (hs : Sized tx) (hj : HaveSigners S jobs) (sch : List Nat)
    (hf : (run H (start tx S jobs) sch).finished) :
    (∀ (k : Nat) (i : Input), tx.Inputs[k]? = some i →
      ((∀ j ∈ jobs, ∀ s, ¬Writes H S tx j k s) ∧ lastWriter (run H (start tx S jobs) sch).log k = none ∧ (run H (start tx S jobs) sch).shared.tx.Inputs[k]? = some i) ∨
      ∃ t j s, lastWriter (run H (start tx S jobs) sch).log k = some t ∧ jobs[t]? = some j ∧ Writes H S tx j k s ∧
        (run H (start tx S jobs) sch).shared.tx.Inputs[k]? = some { i with UnlockingScript := some s }) ∧
    (∀ (t : Nat) (j : Nat × Job), jobs[t]? = some j → ∃ e, (run H (start tx S jobs) sch).threads[t]? = some (j.1, .done e) ∧ Returns H S tx j e) ∧
    ∀ (g : Nat) (a : InternalSigner), S[g]? = some a → (run H (start tx S jobs) sch).shared.signers[g]? =
      some { a with SigHashFlag := if ∃ j ∈ jobs, j.1 = g then flagOrDefault a.SigHashFlag else a.SigHashFlag } := by
  have I := inv H tx S jobs hs hj sch
  have done : ∀ (t : Nat) (j : Nat × Job), jobs[t]? = some j → ∃ a e, S[j.1]? = some a ∧ (run H (start tx S jobs) sch).threads[t]? = some (j.1, .done e) ∧
      PcOk H tx S (run H (start tx S jobs) sch).shared.signers (run H (start tx S jobs) sch).log t j a (.done e) := by
    intro t j ht
    obtain ⟨h1, -⟩ | ⟨j', a, pc, h1, h2, h3, h4⟩ := I.threads t
    · rw [ht] at h1; cases h1
    rw [ht] at h1; cases h1
    obtain ⟨e, he⟩ := hf.2 _ (List.mem_of_getElem? h3)
    dsimp only at he
    subst he
    exact ⟨a, e, h2, h3, h4⟩
  refine ⟨fun k i hi => ?_, fun t j ht => ?_, fun g a ha => ?_⟩
  · have u := I.unlocking k
    unfold UnlockingOk at u
    split at u
    · rename_i hl
      refine Or.inl ⟨fun j hjm s hw => ?_, hl, u i hi⟩
      obtain ⟨t, ht⟩ := List.mem_iff_getElem?.1 hjm
      obtain ⟨a, e, -, -, -, -, -, -, h5, -⟩ := done t j ht
      have hmem := h5 k s hw
      unfold lastWriter at hl
      rw [Option.map_eq_none_iff, List.getLast?_eq_none_iff, List.filter_eq_nil_iff] at hl
      exact hl _ hmem (by simp)
    · rename_i t hl
      obtain ⟨j, s, hjob, hw, i0, h0, h1⟩ := u
      rw [hi] at h0; cases h0
      exact Or.inr ⟨t, j, s, hl, hjob, hw, h1⟩
  · obtain ⟨a, e, h1, h2, h3⟩ := done t j ht
    exact ⟨e, h2, h3.2.2.2.1⟩
  · by_cases hu : ∃ j ∈ jobs, j.1 = g
    · simp only [if_pos hu]
      obtain ⟨j, hjm, rfl⟩ := hu
      obtain ⟨t, ht⟩ := List.mem_iff_getElem?.1 hjm
      obtain ⟨b, e, -, -, h3⟩ := done t j ht
      exact h3.1 a ha
    · simp only [if_neg hu]
      rcases I.stored g a ha with h | ⟨t, h⟩
      · exact h
      · obtain ⟨j, b, hjob, -, h1⟩ := I.access _ h
        exact absurd ⟨j, List.mem_of_getElem? hjob, h1.1.symm⟩ hu

/-- No two of the calls give one input different scripts. -/
def Agree (S : List InternalSigner) (tx : Transaction) (jobs : List (Nat × Job)) : Prop :=
  ∀ j ∈ jobs, ∀ j' ∈ jobs, ∀ k s s', Writes H S tx j k s → Writes H S tx j' k s' → s = s'

theorem eq_of_inputs {tx a b : Transaction} (ha : SameButUnlocking tx a) (hb : SameButUnlocking tx b) (h : ∀ (k : Nat) (i : Input), tx.Inputs[k]? = some i → a.Inputs[k]? = b.Inputs[k]?) : a = b := by
  rcases a with ⟨av, ai, ao, al⟩
  rcases b with ⟨bv, bi, bo, bl⟩
  have e1 := ha.1.symm.trans hb.1
  have e2 := ha.2.1.symm.trans hb.2.1
  have e3 := ha.2.2.1.symm.trans hb.2.2.1
  have l1 := same_length ha
  have l2 := same_length hb
  dsimp only at e1 e2 e3 l1 l2 h
  have e4 : ai = bi := by
    apply List.ext_getElem?
    intro k
    rcases hk : tx.Inputs[k]? with _ | i
    · rw [List.getElem?_eq_none_iff] at hk
      rw [List.getElem?_eq_none (by omega), List.getElem?_eq_none (by omega)]
    · exact h k i hk
  subst e1 e2 e3 e4
  rfl

/-- C87, determinism: if no two calls give one input different scripts, every two schedules in which all return leave the same transaction, the same signers and the same results. -/
theorem C87_deterministic (tx : Transaction) (S : List InternalSigner) (jobs : List (Nat × Job)) (hs : Sized tx) (hj : HaveSigners S jobs) (ha : Agree H S tx jobs) (sch sch' : List Nat)
    (hf : (run H (start tx S jobs) sch).finished) (hf' : (run H (start tx S jobs) sch').finished) :
    (run H (start tx S jobs) sch).shared = (run H (start tx S jobs) sch').shared ∧ (run H (start tx S jobs) sch).threads = (run H (start tx S jobs) sch').threads := by
  obtain ⟨p1, p2, p3⟩ := C87_finished H tx S jobs hs hj sch hf
  obtain ⟨q1, q2, q3⟩ := C87_finished H tx S jobs hs hj sch' hf'
  have I := inv H tx S jobs hs hj sch
  have I' := inv H tx S jobs hs hj sch'
  constructor
  · have e1 : (run H (start tx S jobs) sch).shared.tx = (run H (start tx S jobs) sch').shared.tx := by
      apply eq_of_inputs I.same I'.same
      intro k i hi
      rcases p1 k i hi with ⟨h1, -, h2⟩ | ⟨t, j, s, -, h1, h2, h3⟩ <;> rcases q1 k i hi with ⟨g1, -, g2⟩ | ⟨t', j', s', -, g1, g2, g3⟩
      · rw [h2, g2]
      · exact absurd g2 (h1 j' (List.mem_of_getElem? g1) s')
      · exact absurd h2 (g1 j (List.mem_of_getElem? h1) s)
      · rw [h3, g3, ha j (List.mem_of_getElem? h1) j' (List.mem_of_getElem? g1) k s s' h2 g2]
    have e2 : (run H (start tx S jobs) sch).shared.signers = (run H (start tx S jobs) sch').shared.signers := by
      apply List.ext_getElem?
      intro g
      rcases hg : S[g]? with _ | a
      · have l1 := I.rel.1
        have l2 := I'.rel.1
        rw [List.getElem?_eq_none_iff] at hg
        rw [List.getElem?_eq_none (by omega), List.getElem?_eq_none (by omega)]
      · rw [p3 g a hg, q3 g a hg]
    rcases hx : (run H (start tx S jobs) sch).shared with ⟨x1, x2⟩
    rcases hy : (run H (start tx S jobs) sch').shared with ⟨y1, y2⟩
    rw [hx, hy] at e1 e2
    dsimp only at e1 e2
    rw [e1, e2]
  · apply List.ext_getElem?
    intro t
    rcases ht : jobs[t]? with _ | j
    · obtain ⟨-, h1⟩ | ⟨j', _, _, h1, -⟩ := I.threads t
      · obtain ⟨-, h2⟩ | ⟨j', _, _, h2, -⟩ := I'.threads t
        · rw [h1, h2]
        · rw [ht] at h2; cases h2
      · rw [ht] at h1; cases h1
    · obtain ⟨e, h1, h2⟩ := p2 t j ht
      obtain ⟨e', g1, g2⟩ := q2 t j ht
      rw [h1, g1]
      have : e = e' := by
        obtain ⟨a, ha1, h2⟩ := h2
        obtain ⟨b, hb1, g2⟩ := g2
        rw [ha1] at hb1; cases hb1
        rcases j with ⟨g, ⟨m, idx⟩ | m⟩
        · rcases e with _ | e <;> rcases e' with _ | e' <;> dsimp only at h2 g2
          · rfl
          · obtain ⟨_, h2⟩ := h2; rw [h2] at g2; cases g2
          · obtain ⟨_, g2⟩ := g2; rw [h2] at g2; cases g2
          · rw [h2] at g2; injection g2 with g2; rw [g2]
        · dsimp only at h2 g2
          rw [h2, g2]
      rw [this]

/-! ### The calls one after the other -/

/-- A call made alone through the function-level model: the transaction after it (an error leaves it). -/
def alone (S : List InternalSigner) (j : Nat × Job) (tx : Transaction) : Res Transaction :=
  match S[j.1]? with
  | none => .panic
  | some is =>
    match j.2 with
    | .one _ idx => tx.Sign H idx is >>= fun r => pure r.1
    | .auto _ => tx.SignAuto H is >>= fun r => pure r.1

/-- The calls made one after the other. -/
def sequential (S : List InternalSigner) : List (Nat × Job) → Transaction → Res Transaction
  | [], tx => .ok tx
  | j :: js, tx => alone H S j tx >>= sequential S js

/-- The call cannot panic: its signer does not, `Sign` names an existing input, `SignAuto` meets only previous scripts it can read. -/
def Safe (S : List InternalSigner) (tx : Transaction) (j : Nat × Job) : Prop :=
  ∃ is, S[j.1]? = some is ∧ SignerSized is ∧ (∀ d, is.sign d ≠ .panic) ∧
    match j.2 with
    | .one _ idx => idx.toNat < tx.Inputs.length
    | .auto _ => ReadableScripts tx

/-- The outcome of `Sign` does not depend on the unlocking scripts. -/
theorem sign_transfer {a : InternalSigner} {idx : UInt32} {tx t : Transaction} (hs : Sized tx) (hT : SameButUnlocking tx t) :
    (∀ s, a.Sign H idx tx = .ok (withUnlocking tx idx.toNat s) → a.Sign H idx t = .ok (withUnlocking t idx.toNat s)) ∧
    (∀ e, a.Sign H idx tx = .err e → a.Sign H idx t = .err e) ∧ (a.Sign H idx tx = .panic → a.Sign H idx t = .panic) := by
  have hsh := sighash_same H hs hT idx (flagOrDefault a.SigHashFlag)
  simp only [sign_eq, hsh]
  rcases hx : tx.GetInputSignatureHash H idx (flagOrDefault a.SigHashFlag) with sh | e | _
  · simp only [Res.ok_bind]
    have hk : idx.toNat < tx.Inputs.length := by
      by_contra hc
      simp [Transaction.GetInputSignatureHash, index, List.getElem?_eq_none (Nat.le_of_not_lt hc)] at hx
    have hk' : idx.toNat < t.Inputs.length := by rw [same_length hT]; exact hk
    rcases hy : a.sign sh.reverse with sig | e | _
    · simp only [Res.ok_bind, applyUnlocking_eq _ hk, applyUnlocking_eq _ hk', Res.ok.injEq]
      refine ⟨fun s h => ?_, by simp, by simp⟩
      rw [withUnlocking_inj hk h]
    · exact ⟨fun s h => (by cases h), fun e h => h, fun h => (by cases h)⟩
    · exact ⟨fun s h => (by cases h), fun e h => (by cases h), fun h => h⟩
  · exact ⟨fun s h => (by cases h), fun e h => h, fun h => (by cases h)⟩
  · exact ⟨fun s h => (by cases h), fun e h => (by cases h), fun h => h⟩

theorem sign_shape {a : InternalSigner} {idx : UInt32} {tx t : Transaction} (h : a.Sign H idx tx = .ok t) : ∃ s, t = withUnlocking tx idx.toNat s := by
  have hk := sign_inRange H h
  rw [sign_eq] at h
  obtain ⟨sh, -, h⟩ := Res.bind_eq_ok.1 h
  obtain ⟨sig, -, h⟩ := Res.bind_eq_ok.1 h
  rw [applyUnlocking_eq _ hk] at h
  cases h
  exact ⟨_, rfl⟩

theorem withUnlocking_get (tx : Transaction) (k0 : Nat) (s : Bytes) (k : Nat) :
    (withUnlocking tx k0 s).Inputs[k]? = if k = k0 then (tx.Inputs[k]?).map (fun i => { i with UnlockingScript := some s }) else tx.Inputs[k]? := by
  simp only [withUnlocking, List.getElem?_mapIdx]
  split_ifs with h <;> cases tx.Inputs[k]? <;> rfl

theorem alone_spec {S : List InternalSigner} {tx t : Transaction} (hs : Sized tx) (hT : SameButUnlocking tx t) {j : Nat × Job} (hsafe : Safe S tx j) :
    ∃ t', alone H S j t = .ok t' ∧ SameButUnlocking tx t' ∧
      ∀ k, (∀ s, Writes H S tx j k s → t'.Inputs[k]? = (t.Inputs[k]?).map (fun i => { i with UnlockingScript := some s })) ∧
        ((∀ s, ¬Writes H S tx j k s) → t'.Inputs[k]? = t.Inputs[k]?) := by
  obtain ⟨a, ha, hz, hp, hr⟩ := hsafe
  obtain ⟨g, ⟨m, idx⟩ | m⟩ := j
  · dsimp only at ha hr
    simp only [alone, ha, Transaction.Sign]
    obtain ⟨s1, s2, s3⟩ := sign_transfer H (a := a) (idx := idx) hs hT
    rcases hx : a.Sign H idx tx with t0 | e | _
    · obtain ⟨s, rfl⟩ := sign_shape H hx
      rw [s1 s hx]
      refine ⟨_, rfl, hT.trans (withUnlocking_same _ _ _), fun k => ⟨fun s' hw => ?_, fun hn => ?_⟩⟩
      · obtain ⟨rfl, hw'⟩ := writes_of_one H tx S (j := (g, .one m idx)) ha rfl hw
        rw [withUnlocking_get, if_pos rfl]
        have hi : idx.toNat < tx.Inputs.length := sign_inRange H hx
        rw [hx] at hw'; injection hw' with hw'
        rw [withUnlocking_inj hi hw']
      · rw [withUnlocking_get, if_neg]
        rintro rfl
        exact hn s (writes_one H tx S (j := (g, .one m idx)) ha rfl hx)
    · rw [s2 e hx]
      refine ⟨_, rfl, hT, fun k => ⟨fun s' hw => ?_, fun _ => rfl⟩⟩
      obtain ⟨rfl, hw'⟩ := writes_of_one H tx S (j := (g, .one m idx)) ha rfl hw
      rw [hx] at hw'; cases hw'
    · exfalso
      rw [sign_eq] at hx
      rcases Res.bind_eq_panic.1 hx with e | ⟨sh, hsh, e⟩
      · have := (C46_outcome H tx hs idx (flagOrDefault a.SigHashFlag)).1.1 e
        omega
      · rcases Res.bind_eq_panic.1 e with e | ⟨sig, -, e⟩
        · exact hp _ e
        · rw [applyUnlocking_eq _ hr] at e; cases e
  · dsimp only at ha hr
    simp only [alone, ha, Transaction.SignAuto]
    obtain ⟨t', h1, h2, h3, h4, h5, h6⟩ := C48_signAuto H a hz hp t (sized_same hs hT) (readable_same hT hr)
    rw [h1]
    refine ⟨t', rfl, hT.trans (auto_same h1), fun k => ?_⟩
    rcases hk : t.Inputs[k]? with _ | inp
    · have hl : t'.Inputs[k]? = none := by
        rw [List.getElem?_eq_none_iff] at hk ⊢; omega
      rw [hl]
      exact ⟨fun _ _ => rfl, fun _ => rfl⟩
    obtain ⟨hn, h0⟩ | ⟨i0, i1, hi0, hi1, eid, esc⟩ := input_same hT k
    · rw [hk] at h0; cases h0
    rw [hk] at hi1; cases hi1
    have hklt := (List.getElem?_eq_some_iff.1 hi0).1
    have h32 : (UInt32.ofNat k).toNat = k := by
      rw [UInt32.toNat_ofNat']; exact Nat.mod_eq_of_lt (by have := hs.1; omega)
    obtain ⟨u1, u2⟩ := h6 k inp hk
    obtain ⟨s1, s2, s3⟩ := sign_transfer H (a := a) (idx := UInt32.ofNat k) hs hT
    rw [h32] at s1
    constructor
    · rintro s ⟨b, hb, ⟨i', sc, hi', hsc, hbeg⟩, hsign⟩
      rw [ha] at hb; cases hb
      rw [hi0] at hi'; cases hi'
      have hid : inp.PreviousTxID ≠ [] := by
        intro e
        rw [← eid] at e
        rcases sighash_cases H tx hs (UInt32.ofNat k) (flagOrDefault a.SigHashFlag) with ⟨-, ex⟩ | ⟨_, _, -, -, ex⟩ | ⟨inp', code, hi', ht, -, ex⟩
        · rw [sign_eq, ex] at hsign; cases hsign
        · rw [sign_eq, ex] at hsign; cases hsign
        · rw [h32, hi0] at hi'; cases hi'; exact ht e
      have hsel : Selected (H.ripemd160 (H.sha256 a.pubKey)) inp := ⟨hid, sc, by rw [← esc]; exact hsc, hbeg⟩
      rw [(u2 hsel).1 _ (s1 s hsign), withUnlocking_get, if_pos rfl, hk]
    · intro hn
      by_cases hsel : Selected (H.ripemd160 (H.sha256 a.pubKey)) inp
      · rcases hx : a.Sign H (UInt32.ofNat k) tx with t0 | e | _
        · obtain ⟨s, rfl⟩ := sign_shape H hx
          rw [h32] at hx
          obtain ⟨-, sc, hsc, hbeg⟩ := hsel
          exact absurd ⟨a, ha, ⟨i0, sc, hi0, by rw [esc]; exact hsc, hbeg⟩, hx⟩ (hn s)
        · exact (u2 hsel).2.1 e (s2 e hx)
        · exact absurd (s3 hx) (u2 hsel).2.2
      · exact u1 hsel

theorem sequential_spec {S : List InternalSigner} {tx : Transaction} (hs : Sized tx) (js : List (Nat × Job)) (hsafe : ∀ j ∈ js, Safe S tx j) {t : Transaction} (hT : SameButUnlocking tx t) :
    ∃ t', sequential H S js t = .ok t' ∧ SameButUnlocking tx t' ∧
      ∀ k, ((∀ j ∈ js, ∀ s, ¬Writes H S tx j k s) ∧ t'.Inputs[k]? = t.Inputs[k]?) ∨
        ∃ l j l' s, js = l ++ j :: l' ∧ Writes H S tx j k s ∧ (∀ j' ∈ l', ∀ s', ¬Writes H S tx j' k s') ∧
          t'.Inputs[k]? = (t.Inputs[k]?).map (fun i => { i with UnlockingScript := some s }) := by
  induction js generalizing t with
  | nil => exact ⟨t, rfl, hT, fun k => Or.inl ⟨by simp, rfl⟩⟩
  | cons j js ih =>
    obtain ⟨t1, h1, h2, h3⟩ := alone_spec H hs hT (hsafe j (by simp))
    obtain ⟨t', g1, g2, g3⟩ := ih (fun j' hj' => hsafe j' (by simp [hj'])) h2
    refine ⟨t', by simp only [sequential, h1, Res.ok_bind]; exact g1, g2, fun k => ?_⟩
    rcases g3 k with ⟨n1, n2⟩ | ⟨l, j', l', s, e, w, n, v⟩
    · by_cases hw : ∃ s, Writes H S tx j k s
      · obtain ⟨s, hw⟩ := hw
        exact Or.inr ⟨[], j, js, s, rfl, hw, n1, by rw [n2, (h3 k).1 s hw]⟩
      · push Not at hw
        refine Or.inl ⟨?_, by rw [n2, (h3 k).2 hw]⟩
        intro j' hj'
        rcases List.mem_cons.1 hj' with rfl | hj'
        · exact hw
        · exact n1 j' hj'
    · refine Or.inr ⟨j :: l, j', l', s, by rw [e]; rfl, w, n, ?_⟩
      rw [v]
      by_cases hw : ∃ s, Writes H S tx j k s
      · obtain ⟨s', hw⟩ := hw
        rw [(h3 k).1 s' hw]
        cases t.Inputs[k]? <;> rfl
      · push Not at hw
        rw [(h3 k).2 hw]

/-- C87, sequential equivalence: if no two calls give one input different scripts, every schedule in which all return leaves the transaction that the calls leave when made one after the
other, in any order (`js` is any permutation of the calls). -/
theorem C87_sequential (tx : Transaction) (S : List InternalSigner) (jobs js : List (Nat × Job)) (hs : Sized tx) (hsafe : ∀ j ∈ jobs, Safe S tx j) (ha : Agree H S tx jobs)
    (hperm : js.Perm jobs) (sch : List Nat) (hf : (run H (start tx S jobs) sch).finished) :
    sequential H S js tx = .ok (run H (start tx S jobs) sch).shared.tx := by
  have hj : HaveSigners S jobs := by
    intro j hjm
    obtain ⟨a, h, -⟩ := hsafe j hjm
    exact (List.getElem?_eq_some_iff.1 h).1
  obtain ⟨t', g1, g2, g3⟩ := sequential_spec H hs js (fun j h => hsafe j (hperm.mem_iff.1 h)) (SameButUnlocking.refl tx)
  rw [g1]
  congr 1
  apply eq_of_inputs g2 (inv H tx S jobs hs hj sch).same
  intro k i hi
  rcases (C87_finished H tx S jobs hs hj sch hf).1 k i hi with ⟨h1, -, h2⟩ | ⟨t, j, s, -, h1, h2, h3⟩ <;> rcases g3 k with ⟨n1, n2⟩ | ⟨l, j', l', s', e, w, n, v⟩
  · rw [n2, h2, hi]
  · exact absurd w (h1 j' (hperm.mem_iff.1 (by rw [e]; simp)) s')
  · exact absurd h2 (n1 j (hperm.mem_iff.2 (List.mem_of_getElem? h1)) s)
  · rw [v, h3, hi, ha j (List.mem_of_getElem? h1) j' (hperm.mem_iff.1 (by rw [e]; simp)) k s s' h2 w]
    rfl

/-! ### Progress -/

theorem signStep_runs {tx : Transaction} {S : List InternalSigner} (hs : Sized tx) {σ : Shared} (hT : SameButUnlocking tx σ.tx) (hR : Rel S σ.signers) {sg : Nat} {a : InternalSigner}
    (ha : S[sg]? = some a) (hp : ∀ d, a.sign d ≠ .panic) {idx : UInt32} (hidx : idx.toNat < tx.Inputs.length) (p : InSign) : ∃ r, signStep H σ sg idx p = .ok r := by
  obtain ⟨f, hf, -⟩ := hR.2 sg a ha
  have hi : index σ.signers sg = .ok { a with SigHashFlag := f } := by simp [index, hf]
  have hk : idx.toNat < σ.tx.Inputs.length := by rw [same_length hT]; exact hidx
  unfold signStep
  rw [hi, Res.ok_bind]
  rcases p with _ | _ | _ | sh | sig | s | e
  · exact ⟨_, rfl⟩
  · exact ⟨_, rfl⟩
  · dsimp only
    rcases hx : σ.tx.GetInputSignatureHash H idx f with sh | e | _
    · exact ⟨_, rfl⟩
    · exact ⟨_, rfl⟩
    · have := (C46_outcome H σ.tx (sized_same hs hT) idx f).1.1 hx
      omega
  · dsimp only
    rcases hx : a.sign (ReverseBytes sh) with sig | e | _
    · exact ⟨_, rfl⟩
    · exact ⟨_, rfl⟩
    · exact absurd hx (hp _)
  · exact ⟨_, rfl⟩
  · dsimp only
    rw [applyUnlocking_eq s hk]
    exact ⟨_, rfl⟩
  · exact ⟨_, rfl⟩

theorem pcStep_runs {tx : Transaction} {S : List InternalSigner} (hs : Sized tx) {σ : Shared} (hT : SameButUnlocking tx σ.tx) (hR : Rel S σ.signers) {j : Nat × Job} {a : InternalSigner}
    (ha : S[j.1]? = some a) (hsafe : Safe S tx j) {log : List Access} {t : Nat} {pc : PC} (hpc : PcOk H tx S σ.signers log t j a pc) : ∃ r, pcStep H σ j.1 pc = .ok r := by
  obtain ⟨b, hb, -, hp, hr⟩ := hsafe
  rw [ha] at hb; cases hb
  obtain ⟨f, hf, -⟩ := hR.2 j.1 a ha
  have hi : index σ.signers j.1 = .ok { a with SigHashFlag := f } := by simp [index, hf]
  cases pc with
  | one m idx p =>
    rw [hpc.1] at hr
    by_cases hret : ∃ e, p = .ret e
    · obtain ⟨_ | e, rfl⟩ := hret <;> exact ⟨_, rfl⟩
    · have h' : pcStep H σ j.1 (.one m idx p) = (signStep H σ j.1 idx p >>= fun r => pure (r.1, .one m idx r.2.1, r.2.2)) := by
        cases p <;> first | rfl | exact absurd ⟨_, rfl⟩ hret
      obtain ⟨r, h⟩ := signStep_runs H hs hT hR ha hp hr p
      rw [h', h]
      exact ⟨_, rfl⟩
  | autoTest m => simp only [pcStep, hi, Res.ok_bind]; exact ⟨_, rfl⟩
  | autoStore m => simp only [pcStep, hi, Res.ok_bind]; exact ⟨_, rfl⟩
  | range m => exact ⟨_, rfl⟩
  | scan m n i =>
    obtain ⟨h1, -, -, -, h5, h6, -⟩ := hpc
    rw [h1] at hr
    by_cases hlt : i < n
    · have hk : i < σ.tx.Inputs.length := by rw [same_length hT]; omega
      have hin : index σ.tx.Inputs i = .ok σ.tx.Inputs[i] := by simp [index, List.getElem?_eq_getElem hk]
      have hnp := readable_same hT hr _ (List.getElem_mem hk)
      simp only [pcStep, if_pos hlt, hi, Res.ok_bind, hin]
      rcases hg : GetPublicKeyHash σ.tx.Inputs[i].PreviousTxScript with x | e | _
      · dsimp only; split_ifs <;> exact ⟨_, rfl⟩
      · dsimp only; split_ifs <;> exact ⟨_, rfl⟩
      · exact absurd hg hnp
    · simp only [pcStep, if_neg hlt]; exact ⟨_, rfl⟩
  | inAuto m n i p =>
    obtain ⟨h1, -, -, -, h5, h6, -⟩ := hpc
    by_cases hret : ∃ e, p = .ret e
    · obtain ⟨e, rfl⟩ := hret; exact ⟨_, rfl⟩
    · have h' : pcStep H σ j.1 (.inAuto m n i p) = (signStep H σ j.1 (UInt32.ofNat i) p >>= fun r => pure (r.1, .inAuto m n i r.2.1, r.2.2)) := by
        cases p <;> first | rfl | exact absurd ⟨_, rfl⟩ hret
      obtain ⟨r, h⟩ := signStep_runs H hs hT hR ha hp (idx := UInt32.ofNat i)
        (by rw [UInt32.toNat_ofNat', Nat.mod_eq_of_lt (by have := hs.1; omega)]; omega) p
      rw [h', h]
      exact ⟨_, rfl⟩
  | assign => exact ⟨_, rfl⟩
  | done e => exact ⟨_, rfl⟩

/-- C87: calls that cannot panic alone do not panic together. -/
theorem C87_no_panic (tx : Transaction) (S : List InternalSigner) (jobs : List (Nat × Job)) (hs : Sized tx) (hsafe : ∀ j ∈ jobs, Safe S tx j) (sch : List Nat) :
    (run H (start tx S jobs) sch).crashed = false := by
  have hj : HaveSigners S jobs := by
    intro j hjm
    obtain ⟨a, h, -⟩ := hsafe j hjm
    exact (List.getElem?_eq_some_iff.1 h).1
  suffices h : ∀ (s : Sys), Inv H tx S jobs s → s.crashed = false → (run H s sch).crashed = false from h _ (Inv.start H tx S hj) rfl
  induction sch with
  | nil => exact fun s _ h => h
  | cons t sch ih =>
    intro s I hc
    refine ih _ (I.step H tx S hs t) ?_
    unfold step
    rw [if_neg (by simp [hc])]
    obtain ⟨-, hn⟩ | ⟨j, a, pc, h1, h2, h3, h4⟩ := I.threads t
    · rw [hn]; exact hc
    · rw [h3]
      dsimp only
      obtain ⟨r, hr⟩ := pcStep_runs H hs I.same I.rel h2 (hsafe j (List.mem_of_getElem? h1)) h4
      rw [hr]

/-- How many steps a position in `Sign` is from the return, at most. -/
def left : InSign → Nat
  | .test => 7
  | .store => 6
  | .hash => 5
  | .sign _ => 4
  | .script _ => 3
  | .apply _ => 2
  | .ret _ => 1

/-- How many steps a goroutine is from the end, at most, for a transaction with `N` inputs. -/
def remaining (N : Nat) : PC → Nat
  | .one _ _ p => left p + 1
  | .autoTest _ => 9 * N + 5
  | .autoStore _ => 9 * N + 4
  | .range _ => 9 * N + 3
  | .scan _ n i => 9 * (n - i) + 2
  | .inAuto _ n i p => 9 * (n - i - 1) + 2 + left p
  | .assign => 1
  | .done _ => 0

theorem left_step {σ : Shared} {sg : Nat} {idx : UInt32} {p : InSign} {r : Shared × InSign × List (Bool × Loc)} (hret : ¬∃ e, p = .ret e) (h : signStep H σ sg idx p = .ok r) :
    left r.2.1 + 1 ≤ left p := by
  unfold signStep at h
  obtain ⟨is, -, h⟩ := Res.bind_eq_ok.1 h
  rcases p with _ | _ | _ | sh | sig | s | e
  · cases h; dsimp only; split_ifs <;> decide
  · cases h; dsimp only; decide
  · dsimp only at h
    rcases hx : σ.tx.GetInputSignatureHash H idx is.SigHashFlag with sh | e | _ <;> rw [hx] at h <;> cases h <;> simp [left]
  · dsimp only at h
    rcases hx : is.sign (ReverseBytes sh) with sh | e | _ <;> rw [hx] at h <;> cases h <;> simp [left]
  · cases h; simp [left]
  · dsimp only at h
    rcases hx : σ.tx.ApplyUnlockingScript idx s with sh | e | _ <;> rw [hx] at h <;> cases h <;> simp [left]
  · exact absurd ⟨_, rfl⟩ hret

theorem left_pos (p : InSign) : 1 ≤ left p := by cases p <;> simp [left]

theorem remaining_step {σ : Shared} {sg : Nat} {pc : PC} {r : Shared × PC × List (Bool × Loc)} (h : pcStep H σ sg pc = .ok r) :
    remaining σ.tx.Inputs.length r.2.1 ≤ remaining σ.tx.Inputs.length pc - 1 := by
  cases pc with
  | one m idx p =>
    by_cases hret : ∃ e, p = .ret e
    · obtain ⟨_ | e, rfl⟩ := hret
      · cases h; cases m <;> simp [remaining, left]
      · cases h; simp [remaining, left]
    · have h' : pcStep H σ sg (.one m idx p) = (signStep H σ sg idx p >>= fun r => pure (r.1, .one m idx r.2.1, r.2.2)) := by
        cases p <;> first | rfl | exact absurd ⟨_, rfl⟩ hret
      rw [h'] at h
      obtain ⟨q, hq, h⟩ := Res.bind_eq_ok.1 h
      cases h
      have := left_step H hret hq
      simp only [remaining]; omega
  | autoTest m =>
    obtain ⟨is, -, h⟩ := Res.bind_eq_ok.1 h
    cases h
    dsimp only; split_ifs <;> simp [remaining]
  | autoStore m =>
    obtain ⟨is, -, h⟩ := Res.bind_eq_ok.1 h
    cases h
    simp [remaining]
  | range m => cases h; simp [remaining]
  | scan m n i =>
    by_cases hlt : i < n
    · simp only [pcStep, if_pos hlt] at h
      obtain ⟨is, -, h⟩ := Res.bind_eq_ok.1 h
      obtain ⟨inp, -, h⟩ := Res.bind_eq_ok.1 h
      rcases hg : GetPublicKeyHash inp.PreviousTxScript with x | e | _ <;> rw [hg] at h <;> dsimp only at h
      · split_ifs at h <;> cases h <;> simp [remaining, left] <;> omega
      · split_ifs at h <;> cases h <;> simp [remaining, left] <;> omega
      · cases h
    · simp only [pcStep, if_neg hlt] at h
      cases h
      cases m <;> simp [remaining]
  | inAuto m n i p =>
    by_cases hret : ∃ e, p = .ret e
    · obtain ⟨e, rfl⟩ := hret
      cases h; simp [remaining, left]; omega
    · have h' : pcStep H σ sg (.inAuto m n i p) = (signStep H σ sg (UInt32.ofNat i) p >>= fun r => pure (r.1, .inAuto m n i r.2.1, r.2.2)) := by
        cases p <;> first | rfl | exact absurd ⟨_, rfl⟩ hret
      rw [h'] at h
      obtain ⟨q, hq, h⟩ := Res.bind_eq_ok.1 h
      cases h
      have := left_step H hret hq
      have := left_pos q.2.1
      simp only [remaining]; omega
  | assign => cases h; simp [remaining]
  | done e => cases h; simp [remaining]

theorem remaining_zero {N : Nat} {pc : PC} (h : remaining N pc = 0) : ∃ e, pc = .done e := by
  cases pc <;> simp [remaining] at h ⊢

/-- C87, progress: no goroutine waits for another. If each gets 9 steps for each input and 8 more, all return, whatever the order. -/
theorem C87_finishes (tx : Transaction) (S : List InternalSigner) (jobs : List (Nat × Job)) (hs : Sized tx) (hsafe : ∀ j ∈ jobs, Safe S tx j) (sch : List Nat)
    (hfair : ∀ t, t < jobs.length → 9 * tx.Inputs.length + 8 ≤ sch.count t) : (run H (start tx S jobs) sch).finished := by
  have hj : HaveSigners S jobs := by
    intro j hjm
    obtain ⟨a, h, -⟩ := hsafe j hjm
    exact (List.getElem?_eq_some_iff.1 h).1
  refine ⟨C87_no_panic H tx S jobs hs hsafe sch, ?_⟩
  -- each goroutine comes closer to the end with each of its steps
  have main : ∀ (sch : List Nat) (s : Sys) (t : Nat) (x : Nat × PC), Inv H tx S jobs s → (∀ l, (run H s l).crashed = false) → s.threads[t]? = some x →
      ∃ x', (run H s sch).threads[t]? = some x' ∧ remaining tx.Inputs.length x'.2 ≤ remaining tx.Inputs.length x.2 - sch.count t := by
    intro sch
    induction sch with
    | nil => intro s t x _ _ hx; exact ⟨x, hx, by simp⟩
    | cons u sch ih =>
      intro s t x I hc hx
      have hstep : ∃ y, (step H s u).threads[t]? = some y ∧ remaining tx.Inputs.length y.2 ≤ remaining tx.Inputs.length x.2 - if u = t then 1 else 0 := by
        have hc0 := hc []
        have hc1 := hc [u]
        simp only [run, List.foldl_nil, List.foldl_cons] at hc0 hc1
        unfold step at hc1 ⊢
        rw [if_neg (by simp [hc0])] at hc1 ⊢
        rcases hu : s.threads[u]? with _ | ⟨sg, pc⟩
        · dsimp only
          refine ⟨x, hx, ?_⟩
          rw [if_neg]; · simp
          rintro rfl; rw [hx] at hu; cases hu
        · rw [hu] at hc1
          dsimp only at hc1 ⊢
          rcases hp : pcStep H s.shared sg pc with r | e | _ <;> rw [hp] at hc1
          · dsimp only
            have hrem := remaining_step H hp
            rw [same_length I.same] at hrem
            by_cases e : u = t
            · subst e
              rw [hx] at hu; cases hu
              exact ⟨_, List.getElem?_set_self (List.getElem?_eq_some_iff.1 hx).1, by rw [if_pos rfl]; exact hrem⟩
            · exact ⟨x, by rw [List.getElem?_set_ne e]; exact hx, by rw [if_neg e]; simp⟩
          · cases hc1
          · cases hc1
      obtain ⟨y, hy, hle⟩ := hstep
      obtain ⟨x', h1, h2⟩ := ih (step H s u) t y (I.step H tx S hs u) (fun l => hc (u :: l)) hy
      refine ⟨x', h1, h2.trans ?_⟩
      rw [List.count_cons]
      have : (if (u == t) = true then 1 else 0) = if u = t then 1 else 0 := by simp
      rw [this]
      split_ifs at hle ⊢ <;> omega
  intro x hx
  obtain ⟨t, ht⟩ := List.mem_iff_getElem?.1 hx
  have I := inv H tx S jobs hs hj sch
  obtain ⟨-, hn⟩ | ⟨j, a, pc, h1, -, h3, -⟩ := I.threads t
  · rw [hn] at ht; cases ht
  have hstart : (start tx S jobs).threads[t]? = some (j.1, j.2.start) := by simp [start, List.getElem?_map, h1]
  obtain ⟨x', h4, h5⟩ := main sch _ t _ (Inv.start H tx S hj) (fun l => C87_no_panic H tx S jobs hs hsafe l) hstart
  rw [ht] at h4; cases h4
  apply remaining_zero (N := tx.Inputs.length)
  have h6 := hfair t (List.getElem?_eq_some_iff.1 h1).1
  have h7 : remaining tx.Inputs.length j.2.start ≤ 9 * tx.Inputs.length + 8 := by
    rcases j with ⟨g, ⟨m, idx⟩ | m⟩ <;> simp [Job.start, remaining, left]
  dsimp only at h5
  omega

/-! ## C88 -/

/-- Two different goroutines whose calls conflict: they use one signer whose flag is unset, or give one input a script, or one of them goes through the transaction's method and succeeds. -/
def Conflict (S : List InternalSigner) (tx : Transaction) (jobs : List (Nat × Job)) : Prop :=
  ∃ (t t' : Nat) (j j' : Nat × Job), t ≠ t' ∧ jobs[t]? = some j ∧ jobs[t']? = some j' ∧
    ((j.1 = j'.1 ∧ ∃ a, S[j.1]? = some a ∧ a.SigHashFlag = 0) ∨ (∃ k s s', Writes H S tx j k s ∧ Writes H S tx j' k s') ∨ (viaMethod j.2 = true ∧ Returns H S tx j none))

/-- C88: without conflict no schedule has a data race, at any moment. -/
theorem C88_race_free (tx : Transaction) (S : List InternalSigner) (jobs : List (Nat × Job)) (hs : Sized tx) (hj : HaveSigners S jobs) (hc : ¬Conflict H S tx jobs) (sch : List Nat) :
    ¬HasRace (run H (start tx S jobs) sch).log := by
  have I := inv H tx S jobs hs hj sch
  rintro ⟨x, hx, y, hy, hne, hloc, hw⟩
  obtain ⟨j, a, h1, h2, h3⟩ := I.access x hx
  obtain ⟨j', a', g1, g2, g3⟩ := I.access y hy
  apply hc
  refine ⟨x.by_, y.by_, j, j', hne, h1, g1, ?_⟩
  rw [← hloc] at g3
  rcases hl : x.loc with _ | g | k <;> rw [hl] at h3 g3 <;> dsimp only at h3 g3
  · exact Or.inr (Or.inr (h3 hw))
  · exact Or.inl ⟨h3.1.symm.trans g3.1, a, h2, h3.2 hw⟩
  · obtain ⟨s, hs⟩ := h3.2
    obtain ⟨s', hs'⟩ := g3.2
    exact Or.inr (Or.inl ⟨k, s, s', hs, hs'⟩)

/-- C88: with a conflict every schedule in which all return has a data race. -/
theorem C88_races (tx : Transaction) (S : List InternalSigner) (jobs : List (Nat × Job)) (hs : Sized tx) (hj : HaveSigners S jobs) (hc : Conflict H S tx jobs) (sch : List Nat)
    (hf : (run H (start tx S jobs) sch).finished) : HasRace (run H (start tx S jobs) sch).log := by
  have I := inv H tx S jobs hs hj sch
  have done : ∀ (t : Nat) (j : Nat × Job), jobs[t]? = some j → ∃ a e, S[j.1]? = some a ∧
      PcOk H tx S (run H (start tx S jobs) sch).shared.signers (run H (start tx S jobs) sch).log t j a (.done e) := by
    intro t j ht
    obtain ⟨h1, -⟩ | ⟨j', a, pc, h1, h2, h3, h4⟩ := I.threads t
    · rw [ht] at h1; cases h1
    rw [ht] at h1; cases h1
    obtain ⟨e, he⟩ := hf.2 _ (List.mem_of_getElem? h3)
    dsimp only at he
    subst he
    exact ⟨a, e, h2, h4⟩
  obtain ⟨t, t', j, j', hne, h1, h2, h⟩ := hc
  obtain ⟨a, e, ha, p1, p2, p3, p4, p5, p6⟩ := done t j h1
  obtain ⟨a', e', ha', q1, q2, q3, q4, q5, q6⟩ := done t' j' h2
  rcases h with ⟨hsg, b, hb, h0⟩ | ⟨k, s, s', hw, hw'⟩ | ⟨hm, hr⟩
  · rw [ha] at hb; cases hb
    rcases I.stored j.1 a ha with h | ⟨u, hu⟩
    · have := p1 a ha
      rw [h] at this
      injection this with this
      have h3 := congrArg InternalSigner.SigHashFlag this
      dsimp only at h3
      rw [h0] at h3
      exact absurd h3 (by decide)
    · by_cases hut : u = t
      · subst hut
        exact ⟨_, hu, _, q2, hne, by rw [hsg], rfl⟩
      · exact ⟨_, hu, _, p2, hut, rfl, rfl⟩
  · exact ⟨_, p5 k s hw, _, q5 k s' hw', hne, rfl, rfl⟩
  · have he : e = none := by
      obtain ⟨b, hb, hr⟩ := hr
      obtain ⟨c, hc, p4⟩ := p4
      rw [hb] at hc; cases hc
      rcases j with ⟨g, ⟨m, idx⟩ | m⟩
      · rcases e with _ | e
        · rfl
        · dsimp only at hr p4
          obtain ⟨_, hr⟩ := hr
          rw [hr] at p4; cases p4
      · exact p4
    exact ⟨_, p6 he hm, _, q3, hne, rfl, rfl⟩

/-- C88, two goroutines that use the transaction's own `Sign` method on one transaction always race if one of them succeeds, even for different inputs and different signers with set
flags: the method writes the whole transaction back. -/
theorem C88_method_violated (tx : Transaction) (S : List InternalSigner) (g g' : Nat) (idx idx' : UInt32) (m' : Bool) (hs : Sized tx) (hg : g < S.length) (hg' : g' < S.length)
    (hok : ∃ is tx', S[g]? = some is ∧ is.Sign H idx tx = .ok tx') (sch : List Nat)
    (hf : (run H (start tx S [(g, .one true idx), (g', .one m' idx')]) sch).finished) :
    HasRace (run H (start tx S [(g, .one true idx), (g', .one m' idx')]) sch).log := by
  obtain ⟨is, tx', h1, h2⟩ := hok
  refine C88_races H tx S _ hs ?_ ⟨0, 1, (g, .one true idx), (g', .one m' idx'), by decide, rfl, rfl, Or.inr (Or.inr ⟨rfl, is, h1, tx', h2⟩)⟩ sch hf
  intro j hj
  simp only [List.mem_cons, List.not_mem_nil, or_false] at hj
  rcases hj with rfl | rfl
  · exact hg
  · exact hg'

/-! The accesses that a step records are the ones it makes. -/

theorem signStep_writes {σ : Shared} {sg : Nat} {idx : UInt32} {p : InSign} {r : Shared × InSign × List (Bool × Loc)} (h : signStep H σ sg idx p = .ok r) :
    SameButUnlocking σ.tx r.1.tx ∧ (∀ g : Nat, r.1.signers[g]? ≠ σ.signers[g]? → (true, .flag g) ∈ r.2.2) ∧
    (∀ k : Nat, r.1.tx.Inputs[k]? ≠ σ.tx.Inputs[k]? → (true, .unlocking k) ∈ r.2.2) := by
  have quiet : ∀ acc : List (Bool × Loc), SameButUnlocking σ.tx σ.tx ∧ (∀ g : Nat, σ.signers[g]? ≠ σ.signers[g]? → (true, .flag g) ∈ acc) ∧
      (∀ k : Nat, σ.tx.Inputs[k]? ≠ σ.tx.Inputs[k]? → (true, .unlocking k) ∈ acc) :=
    fun acc => ⟨SameButUnlocking.refl _, fun g h => absurd rfl h, fun g h => absurd rfl h⟩
  unfold signStep at h
  obtain ⟨is, -, h⟩ := Res.bind_eq_ok.1 h
  rcases p with _ | _ | _ | sh | sig | s | e
  · cases h; exact quiet _
  · cases h
    refine ⟨SameButUnlocking.refl _, fun g hg => ?_, fun k hk => absurd rfl hk⟩
    dsimp only at hg ⊢
    by_cases e : sg = g
    · subst e; simp
    · rw [List.getElem?_set_ne e] at hg; exact absurd rfl hg
  · dsimp only at h
    rcases hx : σ.tx.GetInputSignatureHash H idx is.SigHashFlag with sh | e | _ <;> rw [hx] at h <;> cases h <;> exact quiet _
  · dsimp only at h
    rcases hx : is.sign (ReverseBytes sh) with sh | e | _ <;> rw [hx] at h <;> cases h <;> exact quiet _
  · cases h; exact quiet _
  · dsimp only at h
    rcases hx : σ.tx.ApplyUnlockingScript idx s with tx | e | _ <;> rw [hx] at h <;> cases h
    · refine ⟨apply_same hx, fun g hg => absurd rfl hg, fun k hk => ?_⟩
      dsimp only at hk ⊢
      by_cases hl : idx.toNat < σ.tx.Inputs.length
      · rw [applyUnlocking_eq s hl] at hx
        cases hx
        rw [withUnlocking_get] at hk
        split_ifs at hk with e
        · simp [e]
        · exact absurd rfl hk
      · simp [Transaction.ApplyUnlockingScript, index, List.getElem?_eq_none (Nat.le_of_not_lt hl)] at hx
    · exact quiet _
  · cases h; exact quiet _

/-- C88: a step changes no flag and no unlocking script but those whose write it records, and nothing else of the transaction. -/
theorem C88_writes_recorded {σ : Shared} {sg : Nat} {pc : PC} {r : Shared × PC × List (Bool × Loc)} (h : pcStep H σ sg pc = .ok r) :
    SameButUnlocking σ.tx r.1.tx ∧ (∀ g : Nat, r.1.signers[g]? ≠ σ.signers[g]? → (true, .flag g) ∈ r.2.2) ∧
    (∀ k : Nat, r.1.tx.Inputs[k]? ≠ σ.tx.Inputs[k]? → (true, .unlocking k) ∈ r.2.2) := by
  have quiet : ∀ acc : List (Bool × Loc), SameButUnlocking σ.tx σ.tx ∧ (∀ g : Nat, σ.signers[g]? ≠ σ.signers[g]? → (true, .flag g) ∈ acc) ∧
      (∀ k : Nat, σ.tx.Inputs[k]? ≠ σ.tx.Inputs[k]? → (true, .unlocking k) ∈ acc) :=
    fun acc => ⟨SameButUnlocking.refl _, fun g h => absurd rfl h, fun g h => absurd rfl h⟩
  cases pc with
  | one m idx p =>
    by_cases hret : ∃ e, p = .ret e
    · obtain ⟨_ | e, rfl⟩ := hret <;> cases h <;> exact quiet _
    · have h' : pcStep H σ sg (.one m idx p) = (signStep H σ sg idx p >>= fun r => pure (r.1, .one m idx r.2.1, r.2.2)) := by
        cases p <;> first | rfl | exact absurd ⟨_, rfl⟩ hret
      rw [h'] at h
      obtain ⟨q, hq, h⟩ := Res.bind_eq_ok.1 h
      cases h
      exact signStep_writes H hq
  | autoTest m =>
    obtain ⟨is, -, h⟩ := Res.bind_eq_ok.1 h
    cases h; exact quiet _
  | autoStore m =>
    obtain ⟨is, -, h⟩ := Res.bind_eq_ok.1 h
    cases h
    refine ⟨SameButUnlocking.refl _, fun g hg => ?_, fun k hk => absurd rfl hk⟩
    dsimp only at hg ⊢
    by_cases e : sg = g
    · subst e; simp
    · rw [List.getElem?_set_ne e] at hg; exact absurd rfl hg
  | range m => cases h; exact quiet _
  | scan m n i =>
    by_cases hlt : i < n
    · simp only [pcStep, if_pos hlt] at h
      obtain ⟨is, -, h⟩ := Res.bind_eq_ok.1 h
      obtain ⟨inp, -, h⟩ := Res.bind_eq_ok.1 h
      rcases hg : GetPublicKeyHash inp.PreviousTxScript with x | e | _ <;> rw [hg] at h <;> dsimp only at h
      · split_ifs at h <;> cases h <;> exact quiet _
      · split_ifs at h <;> cases h <;> exact quiet _
      · cases h
    · simp only [pcStep, if_neg hlt] at h
      cases h; exact quiet _
  | inAuto m n i p =>
    by_cases hret : ∃ e, p = .ret e
    · obtain ⟨e, rfl⟩ := hret
      cases h; exact quiet _
    · have h' : pcStep H σ sg (.inAuto m n i p) = (signStep H σ sg (UInt32.ofNat i) p >>= fun r => pure (r.1, .inAuto m n i r.2.1, r.2.2)) := by
        cases p <;> first | rfl | exact absurd ⟨_, rfl⟩ hret
      rw [h'] at h
      obtain ⟨q, hq, h⟩ := Res.bind_eq_ok.1 h
      cases h
      exact signStep_writes H hq
  | assign => cases h; exact quiet _
  | done e => cases h; exact quiet _

/-- Two states that agree on all memory no call writes: they differ at most in unlocking scripts and flags. -/
def AgreeFixed (σ τ : Shared) : Prop :=
  SameButUnlocking σ.tx τ.tx ∧ ∀ g : Nat, (σ.signers[g]?).map (fun a => ({ a with SigHashFlag := 0 } : InternalSigner)) = (τ.signers[g]?).map (fun a => ({ a with SigHashFlag := 0 } : InternalSigner))

theorem agree_signer {σ τ : Shared} (h : AgreeFixed σ τ) {sg : Nat} {a : InternalSigner} (ha : index σ.signers sg = .ok a) :
    ∃ b, index τ.signers sg = .ok b ∧ b.sign = a.sign ∧ b.pubKey = a.pubKey ∧ (σ.signers[sg]? = τ.signers[sg]? → b = a) := by
  have h1 := h.2 sg
  unfold index at ha
  rcases hx : σ.signers[sg]? with _ | x <;> rw [hx] at ha <;> cases ha
  rcases hy : τ.signers[sg]? with _ | y <;> rw [hx, hy] at h1
  · cases h1
  · simp only [Option.map_some, Option.some.injEq, InternalSigner.mk.injEq] at h1
    refine ⟨y, by simp [index, hy], h1.1.symm, h1.2.1.symm, fun e => ?_⟩
    injection e with e
    exact e.symm

theorem signStep_reads {σ τ : Shared} (hs : Sized σ.tx) (hag : AgreeFixed σ τ) {sg : Nat} {idx : UInt32} {p : InSign} {r : Shared × InSign × List (Bool × Loc)}
    (h : signStep H σ sg idx p = .ok r) (hf : ∀ g, (false, .flag g) ∈ r.2.2 → σ.signers[g]? = τ.signers[g]?) : ∃ r', signStep H τ sg idx p = .ok r' ∧ r'.2 = r.2 := by
  unfold signStep at h
  obtain ⟨a, ha, h⟩ := Res.bind_eq_ok.1 h
  obtain ⟨b, hb, e1, e2, e3⟩ := agree_signer hag ha
  unfold signStep
  rw [hb, Res.ok_bind]
  rcases p with _ | _ | _ | sh | sig | s | e
  · cases h
    have := e3 (hf sg (by simp))
    subst this
    exact ⟨_, rfl, rfl⟩
  · cases h; exact ⟨_, rfl, rfl⟩
  · have hflag : b = a := by
      dsimp only at h
      rcases hx : σ.tx.GetInputSignatureHash H idx a.SigHashFlag with sh | e | _ <;> rw [hx] at h <;> cases h <;> exact e3 (hf sg (by simp))
    subst hflag
    dsimp only at h ⊢
    rw [sighash_same H hs hag.1]
    rcases hx : σ.tx.GetInputSignatureHash H idx b.SigHashFlag with sh | e | _ <;> rw [hx] at h <;> cases h <;> exact ⟨_, rfl, rfl⟩
  · dsimp only at h ⊢
    rw [e1]
    rcases hx : a.sign (ReverseBytes sh) with sh | e | _ <;> rw [hx] at h <;> cases h <;> exact ⟨_, rfl, rfl⟩
  · cases h
    have := e3 (hf sg (by simp))
    subst this
    exact ⟨_, rfl, rfl⟩
  · dsimp only at h ⊢
    by_cases hl : idx.toNat < σ.tx.Inputs.length
    · rw [applyUnlocking_eq s hl] at h
      rw [applyUnlocking_eq s (by rw [same_length hag.1]; exact hl)]
      cases h
      exact ⟨_, rfl, rfl⟩
    · simp [Transaction.ApplyUnlockingScript, index, List.getElem?_eq_none (Nat.le_of_not_lt hl)] at h
  · cases h; exact ⟨_, rfl, rfl⟩

/-- C88: where a step goes and what it accesses depends on nothing that calls write but the flags whose read it records; in particular no call reads an unlocking script. -/
theorem C88_reads_recorded {σ τ : Shared} (hs : Sized σ.tx) (hag : AgreeFixed σ τ) {sg : Nat} {pc : PC} {r : Shared × PC × List (Bool × Loc)} (h : pcStep H σ sg pc = .ok r)
    (hf : ∀ g, (false, .flag g) ∈ r.2.2 → σ.signers[g]? = τ.signers[g]?) : ∃ r', pcStep H τ sg pc = .ok r' ∧ r'.2 = r.2 := by
  cases pc with
  | one m idx p =>
    by_cases hret : ∃ e, p = .ret e
    · obtain ⟨_ | e, rfl⟩ := hret <;> cases h <;> exact ⟨_, rfl, rfl⟩
    · have h' : ∀ σ, pcStep H σ sg (.one m idx p) = (signStep H σ sg idx p >>= fun r => pure (r.1, .one m idx r.2.1, r.2.2)) := by
        intro σ; cases p <;> first | rfl | exact absurd ⟨_, rfl⟩ hret
      rw [h'] at h ⊢
      obtain ⟨q, hq, h⟩ := Res.bind_eq_ok.1 h
      cases h
      obtain ⟨q', hq', e⟩ := signStep_reads H hs hag hq hf
      rw [hq', Res.ok_bind]
      exact ⟨_, rfl, by dsimp only; rw [e]⟩
  | autoTest m =>
    obtain ⟨a, ha, h⟩ := Res.bind_eq_ok.1 h
    obtain ⟨b, hb, e1, e2, e3⟩ := agree_signer hag ha
    cases h
    have := e3 (hf sg (by simp))
    subst this
    simp only [pcStep, hb, Res.ok_bind]
    exact ⟨_, rfl, rfl⟩
  | autoStore m =>
    obtain ⟨a, ha, h⟩ := Res.bind_eq_ok.1 h
    obtain ⟨b, hb, e1, e2, e3⟩ := agree_signer hag ha
    cases h
    simp only [pcStep, hb, Res.ok_bind]
    exact ⟨_, rfl, rfl⟩
  | range m =>
    cases h
    exact ⟨_, rfl, by dsimp only; rw [same_length hag.1]⟩
  | scan m n i =>
    by_cases hlt : i < n
    · simp only [pcStep, if_pos hlt] at h ⊢
      obtain ⟨a, ha, h⟩ := Res.bind_eq_ok.1 h
      obtain ⟨b, hb, e1, e2, e3⟩ := agree_signer hag ha
      obtain ⟨inp, hi, h⟩ := Res.bind_eq_ok.1 h
      obtain ⟨hn, -⟩ | ⟨i0, i1, hi0, hi1, -, hps⟩ := input_same hag.1 i
      · simp [index, hn] at hi
      · have : inp = i0 := by simp [index, hi0] at hi; exact hi.symm
        subst this
        have hi1' : index τ.tx.Inputs i = .ok i1 := by simp [index, hi1]
        rw [hb, Res.ok_bind, hi1', Res.ok_bind, ← hps, e2]
        rcases hg : GetPublicKeyHash inp.PreviousTxScript with x | e | _ <;> rw [hg] at h <;> dsimp only at h ⊢
        · split_ifs at h ⊢ <;> cases h <;> exact ⟨_, rfl, rfl⟩
        · split_ifs at h ⊢ <;> cases h <;> exact ⟨_, rfl, rfl⟩
        · cases h
    · simp only [pcStep, if_neg hlt] at h ⊢
      cases h; exact ⟨_, rfl, rfl⟩
  | inAuto m n i p =>
    by_cases hret : ∃ e, p = .ret e
    · obtain ⟨e, rfl⟩ := hret
      cases h; exact ⟨_, rfl, rfl⟩
    · have h' : ∀ σ, pcStep H σ sg (.inAuto m n i p) = (signStep H σ sg (UInt32.ofNat i) p >>= fun r => pure (r.1, .inAuto m n i r.2.1, r.2.2)) := by
        intro σ; cases p <;> first | rfl | exact absurd ⟨_, rfl⟩ hret
      rw [h'] at h ⊢
      obtain ⟨q, hq, h⟩ := Res.bind_eq_ok.1 h
      cases h
      obtain ⟨q', hq', e⟩ := signStep_reads H hs hag hq hf
      rw [hq', Res.ok_bind]
      exact ⟨_, rfl, by dsimp only; rw [e]⟩
  | assign => cases h; exact ⟨_, rfl, rfl⟩
  | done e => cases h; exact ⟨_, rfl, rfl⟩

/-! ## C89 -/

/-- C89: calls of `Sign` only: every schedule in which all return leaves the transaction that the calls leave when made one after the other in some order (for each input, the call that
wrote it last comes last), even if they give one input different scripts. -/
theorem C89_sign_linearizable (tx : Transaction) (S : List InternalSigner) (jobs : List (Nat × Job)) (hs : Sized tx) (hsafe : ∀ j ∈ jobs, Safe S tx j)
    (hone : ∀ j ∈ jobs, ∃ m idx, j.2 = .one m idx) (sch : List Nat) (hf : (run H (start tx S jobs) sch).finished) :
    ∃ js : List (Nat × Job), js.Perm jobs ∧ sequential H S js tx = .ok (run H (start tx S jobs) sch).shared.tx := by
  classical
  have hj : HaveSigners S jobs := by
    intro j hjm
    obtain ⟨a, h, -⟩ := hsafe j hjm
    exact (List.getElem?_eq_some_iff.1 h).1
  obtain ⟨log, hlog⟩ : ∃ log, log = (run H (start tx S jobs) sch).log := ⟨_, rfl⟩
  obtain ⟨last, hlast⟩ : ∃ last : Nat → Bool, ∀ t, last t = true ↔ ∃ k, lastWriter log k = some t := ⟨fun t => decide (∃ k, lastWriter log k = some t), fun t => by simp⟩
  obtain ⟨A, hA⟩ : ∃ A : List (Nat × Job), A = ((List.finRange jobs.length).filter fun t => !last t.1).map fun t => jobs[t] := ⟨_, rfl⟩
  obtain ⟨B, hB⟩ : ∃ B : List (Nat × Job), B = ((List.finRange jobs.length).filter fun t => last t.1).map fun t => jobs[t] := ⟨_, rfl⟩
  have hperm : (A ++ B).Perm jobs := by
    have h1 : (((List.finRange jobs.length).filter fun t => last t.1) ++ ((List.finRange jobs.length).filter fun t => !last t.1)).Perm (List.finRange jobs.length) :=
      List.filter_append_perm _ _
    have h2 := (List.perm_append_comm.trans h1).map fun t => jobs[t]
    rw [List.map_append, ← hA, ← hB] at h2
    have h3 : (List.finRange jobs.length).map (fun t => jobs[t]) = jobs := by
      apply List.ext_getElem <;> simp
    rw [h3] at h2
    exact h2
  refine ⟨A ++ B, hperm, ?_⟩
  obtain ⟨t', g1, g2, g3⟩ := sequential_spec H hs (A ++ B) (fun j h => hsafe j (hperm.mem_iff.1 h)) (SameButUnlocking.refl tx)
  rw [g1]
  congr 1
  apply eq_of_inputs g2 (inv H tx S jobs hs hj sch).same
  intro k i hi
  have hk := (List.getElem?_eq_some_iff.1 hi).1
  have hinv := inv H tx S jobs hs hj sch
  -- a call writes one input only
  have single : ∀ j ∈ jobs, ∀ k k' s s', Writes H S tx j k s → Writes H S tx j k' s' → k = k' := by
    intro j hjm k k' s s' h h'
    obtain ⟨m, idx, e⟩ := hone j hjm
    obtain ⟨a, -, ha, -⟩ := h
    obtain ⟨b, -, hb, -⟩ := h'
    rw [e] at ha hb
    exact Eq.trans ha (Eq.symm hb)
  rcases (C87_finished H tx S jobs hs hj sch hf).1 k i hi with ⟨h1, -, h2⟩ | ⟨t, j, s, hl, h1, h2, h3⟩ <;> rcases g3 k with ⟨n1, n2⟩ | ⟨l, j', l', s', e, w, n, v⟩
  · rw [n2, h2, hi]
  · exact absurd w (h1 j' (hperm.mem_iff.1 (by rw [e]; simp)) s')
  · exact absurd h2 (n1 j (hperm.mem_iff.2 (List.mem_of_getElem? h1)) s)
  · rw [v, h3, hi]
    -- `j` is in the second part
    rw [← hlog] at hl
    have htl := (List.getElem?_eq_some_iff.1 h1).1
    have hjB : j ∈ B := by
      rw [hB, List.mem_map]
      refine ⟨⟨t, htl⟩, ?_, ?_⟩
      · rw [List.mem_filter]; exact ⟨List.mem_finRange _, (hlast t).2 ⟨k, hl⟩⟩
      · exact (List.getElem?_eq_some_iff.1 h1).2
    -- so `j'` is too
    have hj'B : j' ∈ B := by
      rcases List.append_eq_append_iff.1 e with ⟨c, rfl, hc⟩ | ⟨c, rfl, hc⟩
      · rw [hc]; simp
      · rcases c with _ | ⟨c0, c⟩
        · simp only [List.nil_append] at hc; rw [← hc]; simp
        · simp only [List.cons_append, List.cons.injEq] at hc
          exact absurd h2 (n j (by rw [hc.2]; simp [hjB]) s)
    rw [hB, List.mem_map] at hj'B
    obtain ⟨u, hu, rfl⟩ := hj'B
    rw [List.mem_filter] at hu
    obtain ⟨k', hk'⟩ := (hlast u.1).1 hu.2
    have hu1 : jobs[u.1]? = some jobs[u.1] := List.getElem?_eq_getElem u.2
    -- what the last writer of `k'` writes is at `k'`
    have hw' := hinv.unlocking k'
    unfold UnlockingOk at hw'
    rw [← hlog, hk'] at hw'
    dsimp only at hw'
    obtain ⟨j2, s2, e2, w2, -⟩ := hw'
    rw [hu1] at e2; injection e2 with e2
    have hkk : k = k' := single _ (List.getElem_mem u.2) k k' s' s2 w (by rw [show jobs[u.1] = j2 from e2]; exact w2)
    subst hkk
    rw [hl] at hk'
    injection hk' with hk'
    have hju : j = jobs[u] := by
      have := (List.getElem?_eq_some_iff.1 h1).2
      rw [← this]
      simp only [hk']
      rfl
    rw [hju] at h2
    rw [writes_unique H hk h2 w]
    rfl

/-- A transaction with two inputs the toy key signs. -/
def exPair : Transaction :=
  { exSpend with Inputs := [
      { PreviousTxID := List.replicate 64 49, PreviousTxOutIndex := 1, PreviousTxSatoshis := 5,
        PreviousTxScript := some (p2pkh (toyH.ripemd160 (toyH.sha256 toySigner.pubKey))), UnlockingScript := none, SequenceNumber := 1 },
      { PreviousTxID := List.replicate 64 50, PreviousTxOutIndex := 2, PreviousTxSatoshis := 6,
        PreviousTxScript := some (p2pkh (toyH.ripemd160 (toyH.sha256 toySigner.pubKey))), UnlockingScript := none, SequenceNumber := 2 }] }

/-- The toy key with the flags unset, ALL|FORKID and NONE|FORKID. -/
def exSigners : List InternalSigner := [toySigner, { toySigner with SigHashFlag := 0x41 }, { toySigner with SigHashFlag := 0x42 }]

instance (s : Sys) : Decidable s.finished :=
  decidable_of_iff (s.crashed = false ∧ ∀ x ∈ s.threads, (match x.2 with | .done _ => true | _ => false) = true) (by
    unfold Sys.finished
    refine and_congr_right fun _ => forall_congr' fun x => imp_congr_right fun _ => ?_
    rcases x with ⟨g, pc⟩
    cases pc <;> simp)

/-- Two goroutines sign both inputs, with the flags ALL|FORKID and NONE|FORKID; the second runs while the first has signed one input. -/
def exMixed : Sys := run toyH (start exPair exSigners [(1, .auto false), (2, .auto false)]) (List.replicate 8 0 ++ List.replicate 30 1 ++ List.replicate 30 0)

/-- C89 is violated for `SignAuto`: two goroutines with one key and different flags can leave a mixture of signatures that no order of the two calls leaves. -/
theorem C89_auto_violated : exMixed.finished ∧ ∀ js : List (Nat × Job), js.Perm [(1, .auto false), (2, .auto false)] → sequential toyH exSigners js exPair ≠ .ok exMixed.shared.tx := by
  have h0 : exMixed.finished := by decide +kernel
  have h1 : sequential toyH exSigners [(1, .auto false), (2, .auto false)] exPair ≠ .ok exMixed.shared.tx := by decide +kernel
  have h2 : sequential toyH exSigners [(2, .auto false), (1, .auto false)] exPair ≠ .ok exMixed.shared.tx := by decide +kernel
  refine ⟨h0, fun js hp => ?_⟩
  have hl := hp.length_eq
  rcases js with _ | ⟨a, _ | ⟨b, _ | ⟨c, js⟩⟩⟩
  · simp at hl
  · simp at hl
  · have ha : a ∈ [((1 : Nat), Job.auto false), (2, .auto false)] := hp.mem_iff.1 (by simp)
    simp only [List.mem_cons, List.not_mem_nil, or_false] at ha
    rcases ha with rfl | rfl
    · have := List.singleton_perm_singleton.1 ((List.perm_cons _).1 hp)
      subst this; exact h1
    · have := List.singleton_perm_singleton.1 ((List.perm_cons _).1 (hp.trans (List.Perm.swap _ _ _)))
      subst this; exact h2
  · simp at hl

/-! ### Non-vacuity -/

/-- Two goroutines that sign different inputs with different signers. -/
def exJobs : List (Nat × Job) := [(1, .one false 0), (2, .one false 1)]

theorem exPair_sized : Sized exPair := by
  unfold Sized exPair
  simp only [exSpend, exTx]
  decide +kernel

theorem exSigner_sized (f : UInt8) : SignerSized { toySigner with SigHashFlag := f } := toySigner_sized

theorem exJobs_safe : ∀ j ∈ exJobs, Safe exSigners exPair j := by
  intro j hj
  simp only [exJobs, List.mem_cons, List.not_mem_nil, or_false] at hj
  rcases hj with rfl | rfl
  · exact ⟨_, rfl, exSigner_sized 0x41, fun d h => (by cases h), by decide⟩
  · exact ⟨_, rfl, exSigner_sized 0x42, fun d h => (by cases h), by decide⟩

theorem exJobs_agree (H : HashFns) : Agree H exSigners exPair exJobs := by
  intro j hj j' hj' k s s' h h'
  have hk := writes_lt H h
  have key : j = j' := by
    obtain ⟨a, -, h1, -⟩ := h
    obtain ⟨b, -, h2, -⟩ := h'
    simp only [exJobs, List.mem_cons, List.not_mem_nil, or_false] at hj hj'
    rcases hj with rfl | rfl <;> rcases hj' with rfl | rfl <;> first | rfl | exact absurd (h1.symm.trans h2) (by decide)
  subst key
  exact writes_unique H hk h h'

theorem exJobs_apart (H : HashFns) : ¬Conflict H exSigners exPair exJobs := by
  rintro ⟨t, t', j, j', hne, h1, h2, h⟩
  rcases t with _ | _ | t <;> rcases t' with _ | _ | t' <;> simp [exJobs] at hne h1 h2
  all_goals
    obtain rfl := h1
    obtain rfl := h2
    rcases h with ⟨h, -⟩ | ⟨k, s, s', ⟨_, -, h3, -⟩, ⟨_, -, h4, -⟩⟩ | ⟨h, -⟩
    · exact absurd h (by decide)
    · exact absurd (h3.symm.trans h4) (by decide)
    · exact absurd h (by decide)

/-- The two goroutines taking turns: both return, the result is that of the calls one after the other, both inputs are signed, and there is no race. -/
example : (run toyH (start exPair exSigners exJobs) (List.replicate 26 [1, 0]).flatten).finished ∧
    sequential toyH exSigners exJobs exPair = .ok (run toyH (start exPair exSigners exJobs) (List.replicate 26 [1, 0]).flatten).shared.tx ∧
    (run toyH (start exPair exSigners exJobs) (List.replicate 26 [1, 0]).flatten).shared.tx ≠ exPair ∧
    ¬HasRace (run toyH (start exPair exSigners exJobs) (List.replicate 26 [1, 0]).flatten).log := by
  have hf : (run toyH (start exPair exSigners exJobs) (List.replicate 26 [1, 0]).flatten).finished :=
    C87_finishes toyH exPair exSigners exJobs exPair_sized exJobs_safe _ (by decide +kernel)
  refine ⟨hf, C87_sequential toyH exPair exSigners exJobs exJobs exPair_sized exJobs_safe (exJobs_agree toyH) (List.Perm.refl _) _ hf, by decide +kernel,
    C88_race_free toyH exPair exSigners exJobs exPair_sized (by unfold HaveSigners; decide) (exJobs_apart toyH) _⟩

/-- A step that sets a flag and one that sets an unlocking script: both writes are recorded. -/
example : (∃ r, pcStep toyH ⟨exPair, exSigners⟩ 0 (.one true 0 .store) = .ok r ∧ (true, Loc.flag 0) ∈ r.2.2) ∧
    ∃ r, pcStep toyH ⟨exPair, exSigners⟩ 0 (.one true 1 (.apply [7])) = .ok r ∧ r.1.tx ≠ exPair ∧ (true, Loc.unlocking 1) ∈ r.2.2 := by
  refine ⟨⟨_, rfl, by simp⟩, ⟨_, rfl, ?_, (C88_writes_recorded toyH (σ := ⟨exPair, exSigners⟩) (pc := .one true 1 (.apply [7])) (sg := 0) rfl).2.2 1 ?_⟩⟩
  · decide +kernel
  · decide +kernel

/-- The recorded read of the flag matters: with another flag the step goes elsewhere. -/
example : AgreeFixed ⟨exPair, exSigners⟩ ⟨exPair, exSigners.set 0 { toySigner with SigHashFlag := 0x41 }⟩ ∧
    ∃ r r', pcStep toyH ⟨exPair, exSigners⟩ 0 (.autoTest true) = .ok r ∧ pcStep toyH ⟨exPair, exSigners.set 0 { toySigner with SigHashFlag := 0x41 }⟩ 0 (.autoTest true) = .ok r' ∧ r.2 ≠ r'.2 := by
  refine ⟨⟨SameButUnlocking.refl _, fun g => ?_⟩, _, _, rfl, rfl, by decide⟩
  rcases g with _ | _ | _ | g <;> rfl

/-- Two goroutines sharing a signer whose flag is unset race, though they sign different inputs. -/
example : HasRace (run toyH (start exPair exSigners [(0, .one false 0), (0, .one false 1)]) (List.replicate 10 0 ++ List.replicate 10 1)).log :=
  C88_races toyH exPair exSigners _ exPair_sized (by unfold HaveSigners; decide) ⟨0, 1, (0, .one false 0), (0, .one false 1), by decide, rfl, rfl, Or.inl ⟨rfl, _, rfl, rfl⟩⟩ _ (by decide +kernel)

/-- Two goroutines using the transaction's method. -/
example : HasRace (run toyH (start exPair exSigners [(1, .one true 0), (2, .one true 1)]) (List.replicate 10 0 ++ List.replicate 10 1)).log := by
  have h : ∃ t, ({ toySigner with SigHashFlag := 0x41 } : InternalSigner).Sign toyH 0 exPair = .ok t := by
    have h := (C47_domain toyH { toySigner with SigHashFlag := 0x41 } (fun _ => rfl) exPair exPair_sized 0).mpr ⟨_, _, rfl, by decide +kernel, rfl⟩
    rcases hx : ({ toySigner with SigHashFlag := 0x41 } : InternalSigner).Sign toyH 0 exPair with t | e | _ <;> rw [hx] at h
    · exact ⟨t, rfl⟩
    · cases h
    · cases h
  obtain ⟨t, h⟩ := h
  exact C88_method_violated toyH exPair exSigners 1 2 0 1 true exPair_sized (by decide) (by decide) ⟨_, t, rfl, h⟩ _ (by decide +kernel)

end Verif.Conc
