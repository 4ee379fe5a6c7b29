import Verif.Props.Concurrent
import Verif.Spec.ConcRead
import Mathlib.Data.List.Induction
import Mathlib.Tactic.Choose
/-!
# C106: serialising a transaction while others sign it
-/
namespace Verif.Props
open Verif Spec Conc

variable (H : HashFns)

theorem inputWith_own (i : Input) : inputWith i (scriptField i.UnlockingScript) = i.ToBytes false := by
  unfold inputWith scriptField Input.ToBytes
  cases i.UnlockingScript <;> simp

/-- The fields a transaction has of its own give its serialisation. -/
theorem txWith_own (tx : Transaction) : txWith tx (tx.Inputs.map fun i => scriptField i.UnlockingScript) = tx.ToBytes := by
  unfold txWith Transaction.ToBytes Transaction.toBytesHelper
  rw [inputsHelper_none]
  have : List.zipWith inputWith tx.Inputs (tx.Inputs.map fun i => scriptField i.UnlockingScript) = tx.Inputs.map fun i => i.ToBytes false := by
    rw [List.zipWith_map_right, List.zipWith_self]
    exact List.map_congr_left fun i _ => inputWith_own i
  rw [this]; simp [List.flatMap]

/-! ## The signers never take a script away -/

theorem signStep_tx {σ : Shared} {sg : Nat} {idx : UInt32} {p : InSign} {r : Shared × InSign × List (Bool × Loc)} (h : signStep H σ sg idx p = .ok r) :
    r.1.tx = σ.tx ∨ ∃ sc, σ.tx.ApplyUnlockingScript idx sc = .ok r.1.tx := by
  unfold signStep at h
  obtain ⟨is, -, h⟩ := Res.bind_eq_ok.1 h
  cases p with
  | test => cases h; exact .inl rfl
  | store => cases h; exact .inl rfl
  | hash => dsimp only at h; split at h <;> cases h <;> exact .inl rfl
  | sign => dsimp only at h; split at h <;> cases h <;> exact .inl rfl
  | script => cases h; exact .inl rfl
  | apply sc =>
    dsimp only at h
    split at h
    · rename_i tx' e; cases h; exact .inr ⟨sc, e⟩
    · cases h; exact .inl rfl
    · cases h
  | ret => cases h; exact .inl rfl

theorem pcStep_tx {σ : Shared} {sg : Nat} {pc : PC} {r : Shared × PC × List (Bool × Loc)} (h : pcStep H σ sg pc = .ok r) :
    r.1.tx = σ.tx ∨ ∃ idx sc, σ.tx.ApplyUnlockingScript idx sc = .ok r.1.tx := by
  have viaSign : ∀ {idx : UInt32} {p : InSign} {q : Shared × InSign × List (Bool × Loc)}, signStep H σ sg idx p = .ok q →
      q.1.tx = σ.tx ∨ ∃ idx sc, σ.tx.ApplyUnlockingScript idx sc = .ok q.1.tx := fun hq => by
    rcases signStep_tx H hq with e | ⟨sc, e⟩
    · exact .inl e
    · exact .inr ⟨_, sc, e⟩
  unfold pcStep at h
  split at h
  · cases h; exact .inl rfl
  · cases h; exact .inl rfl
  · obtain ⟨q, hq, h⟩ := Res.bind_eq_ok.1 h; cases h; exact viaSign hq
  · obtain ⟨q, -, h⟩ := Res.bind_eq_ok.1 h; cases h; exact .inl rfl
  · obtain ⟨q, -, h⟩ := Res.bind_eq_ok.1 h; cases h; exact .inl rfl
  · cases h; exact .inl rfl
  · split at h
    · obtain ⟨is, -, h⟩ := Res.bind_eq_ok.1 h
      obtain ⟨inp, -, h⟩ := Res.bind_eq_ok.1 h
      split at h
      · cases h
      · dsimp only at h
        split_ifs at h <;> cases h <;> exact .inl rfl
    · cases h; exact .inl rfl
  · cases h; exact .inl rfl
  · obtain ⟨q, hq, h⟩ := Res.bind_eq_ok.1 h; cases h; exact viaSign hq
  · cases h; exact .inl rfl
  · cases h; exact .inl rfl

theorem step_tx (s : Sys) (t : Nat) : (step H s t).shared.tx = s.shared.tx ∨ ∃ idx sc, s.shared.tx.ApplyUnlockingScript idx sc = .ok (step H s t).shared.tx := by
  unfold step
  split_ifs
  · exact .inl rfl
  rcases s.threads[t]? with _ | ⟨sg, pc⟩
  · exact .inl rfl
  dsimp only
  rcases h : pcStep H s.shared sg pc with ⟨σ, pc', acc⟩ | e | _
  · exact pcStep_tx H h
  · exact .inl rfl
  · exact .inl rfl

/-- Input `k` has an unlocking script. -/
def HasScript (tx : Transaction) (k : Nat) : Prop := ∃ i s, tx.Inputs[k]? = some i ∧ i.UnlockingScript = some s

theorem hasScript_step {s : Sys} {k : Nat} (h : HasScript s.shared.tx k) (t : Nat) : HasScript (step H s t).shared.tx k := by
  rcases step_tx H s t with e | ⟨idx, sc, e⟩
  · rw [e]; exact h
  · obtain ⟨i, sc', hi, hs⟩ := h
    unfold Transaction.ApplyUnlockingScript at e
    obtain ⟨i0, hi0, e⟩ := Res.bind_eq_ok.1 e
    have e := Res.ok.inj e
    rw [← e]
    by_cases c : idx.toNat = k
    · subst c
      exact ⟨_, sc, List.getElem?_set_self (List.getElem?_eq_some_iff.1 hi).1, rfl⟩
    · exact ⟨i, sc', by dsimp only; rw [List.getElem?_set_ne c]; exact hi, hs⟩

/-! ## The invariant of the readers -/

/-- What is known of the shared transaction at any moment. -/
structure Now (S : List InternalSigner) (tx : Transaction) (jobs : List (Nat × Job)) (tx' : Transaction) : Prop where
  version : tx'.Version = tx.Version
  locktime : tx'.Locktime = tx.Locktime
  outputs : tx'.Outputs = tx.Outputs
  len : tx'.Inputs.length = tx.Inputs.length
  input : ∀ (k : Nat) (i : Input), tx.Inputs[k]? = some i → ∃ v, tx'.Inputs[k]? = some { i with UnlockingScript := v } ∧ MayShow H S tx jobs k v

theorem now_of {tx : Transaction} {S : List InternalSigner} {jobs : List (Nat × Job)} (hs : Sized tx) (hj : HaveSigners S jobs) (sch : List Nat) :
    Now H S tx jobs (run H (start tx S jobs) sch).shared.tx := by
  obtain ⟨h1, h2, -⟩ := C87_always H tx S jobs hs hj sch
  refine ⟨h1.1.symm, h1.2.1.symm, h1.2.2.1.symm, same_length h1, ?_⟩
  intro k i hi
  have hk : k < (run H (start tx S jobs) sch).shared.tx.Inputs.length := by rw [same_length h1]; exact (List.getElem?_eq_some_iff.1 hi).1
  rcases h2 k i _ hi (List.getElem?_eq_getElem hk) with e | ⟨j, hjm, s, hw, e⟩
  · exact ⟨i.UnlockingScript, by rw [List.getElem?_eq_getElem hk, e], .inl ⟨i, hi, rfl⟩⟩
  · exact ⟨some s, by rw [List.getElem?_eq_getElem hk, e], .inr ⟨j, hjm, s, hw, rfl⟩⟩

/-- The bytes before the inputs and the first inputs, with the given script fields. -/
def front (tx : Transaction) (fs : List Bytes) : Bytes :=
  putUint32 tx.Version ++ VarInt (UInt64.ofNat tx.Inputs.length) ++ (List.zipWith inputWith tx.Inputs fs).flatten

def FieldsOK (S : List InternalSigner) (tx : Transaction) (jobs : List (Nat × Job)) (fs : List Bytes) : Prop := ∀ (k : Nat) (f : Bytes), fs[k]? = some f → FieldOK H S tx jobs k f

/-- What is known of a reader. -/
def ROk (S : List InternalSigner) (tx : Transaction) (jobs : List (Nat × Job)) (tx' : Transaction) : RPC → Prop
  | .begin => True
  | .test k acc => ∃ fs, fs.length = k ∧ k ≤ tx.Inputs.length ∧ FieldsOK H S tx jobs fs ∧ acc = front tx fs
  | .len k acc => ∃ fs i, fs.length = k ∧ tx.Inputs[k]? = some i ∧ FieldsOK H S tx jobs fs ∧
      acc = front tx fs ++ ReverseBytes (hexDecodeIgnore i.PreviousTxID) ++ putUint32 i.PreviousTxOutIndex ∧ HasScript tx' k
  | .body k acc => ∃ fs i s, fs.length = k ∧ tx.Inputs[k]? = some i ∧ FieldsOK H S tx jobs fs ∧ MayShow H S tx jobs k (some s) ∧
      acc = front tx fs ++ ReverseBytes (hexDecodeIgnore i.PreviousTxID) ++ putUint32 i.PreviousTxOutIndex ++ VarInt (UInt64.ofNat s.length) ∧ HasScript tx' k
  | .done b => ∃ fs, fs.length = tx.Inputs.length ∧ FieldsOK H S tx jobs fs ∧ b = txWith tx fs

theorem front_snoc {tx : Transaction} {fs : List Bytes} {i : Input} (hi : tx.Inputs[fs.length]? = some i) (f : Bytes) : front tx (fs ++ [f]) = front tx fs ++ inputWith i f := by
  unfold front
  have hlt := (List.getElem?_eq_some_iff.1 hi).1
  have e : tx.Inputs = tx.Inputs.take fs.length ++ i :: tx.Inputs.drop (fs.length + 1) := by
    conv_lhs => rw [← List.take_append_drop fs.length tx.Inputs, List.drop_eq_getElem_cons hlt, (List.getElem?_eq_some_iff.1 hi).2]
  have h1 : List.zipWith inputWith tx.Inputs (fs ++ [f]) = List.zipWith inputWith tx.Inputs fs ++ [inputWith i f] := by
    conv_lhs => rw [e]
    rw [List.zipWith_append (by simp; omega)]
    congr 1
    · conv_rhs => rw [List.zipWith_eq_zipWith_take_min]
      rw [Nat.min_eq_right (by omega), List.take_of_length_le (Nat.le_refl fs.length)]
    · simp
  rw [h1]; simp

theorem fieldsOK_snoc {S : List InternalSigner} {tx : Transaction} {jobs : List (Nat × Job)} {fs : List Bytes} {f : Bytes} (h : FieldsOK H S tx jobs fs) (hf : FieldOK H S tx jobs fs.length f) :
    FieldsOK H S tx jobs (fs ++ [f]) := by
  intro k g hg
  rcases Nat.lt_trichotomy k fs.length with c | c | c
  · rw [List.getElem?_append_left c] at hg; exact h k g hg
  · subst c; simp at hg; exact hg ▸ hf
  · rw [List.getElem?_eq_none (by simp; omega)] at hg; cases hg

/-- A reader's step never panics, and keeps what is known. -/
theorem readStep_ok {S : List InternalSigner} {tx tx' : Transaction} {jobs : List (Nat × Job)} (hn : Now H S tx jobs tx') {pc : RPC} (h : ROk H S tx jobs tx' pc) :
    ∃ pc' acc, readStep tx' pc = .ok (pc', acc) ∧ ROk H S tx jobs tx' pc' := by
  cases pc with
  | begin => exact ⟨_, _, rfl, [], rfl, Nat.zero_le _, fun k f hf => by simp at hf, by simp [front, hn.version, hn.len]⟩
  | test k acc =>
    obtain ⟨fs, rfl, hle, hf, rfl⟩ := h
    simp only [readStep]
    rcases hi : tx.Inputs[fs.length]? with _ | i
    · have e : tx'.Inputs[fs.length]? = none := List.getElem?_eq_none (by rw [hn.len]; exact List.getElem?_eq_none_iff.1 hi)
      rw [e]
      refine ⟨_, _, rfl, fs, ?_, hf, ?_⟩
      · have := List.getElem?_eq_none_iff.1 hi; omega
      · rw [hn.outputs, hn.locktime]; rfl
    · obtain ⟨v, hv, hm⟩ := hn.input _ i hi
      rw [hv]
      have hlt := (List.getElem?_eq_some_iff.1 hi).1
      cases v with
      | none =>
        refine ⟨_, _, rfl, fs ++ [VarInt 0], by simp, hlt, fieldsOK_snoc H hf (.inl ⟨hm, rfl⟩), ?_⟩
        rw [front_snoc hi]; simp [inputWith]
      | some s => exact ⟨_, _, rfl, fs, i, rfl, hi, hf, rfl, _, s, hv, rfl⟩
  | len k acc =>
    obtain ⟨fs, i, rfl, hi, hf, rfl, i', s', hi', hs'⟩ := h
    obtain ⟨v, hv, hm⟩ := hn.input _ i hi
    rw [hi'] at hv
    injection hv with hv
    subst hv
    dsimp only at hs'
    subst hs'
    refine ⟨.body fs.length (front tx fs ++ ReverseBytes (hexDecodeIgnore i.PreviousTxID) ++ putUint32 i.PreviousTxOutIndex ++ VarInt (UInt64.ofNat s'.length)), [(false, .unlocking fs.length)],
      by simp [readStep, index, hi'], fs, i, s', rfl, hi, hf, hm, rfl, _, s', hi', rfl⟩
  | body k acc =>
    obtain ⟨fs, i, s, rfl, hi, hf, hs, rfl, i', s', hi', hs'⟩ := h
    obtain ⟨v, hv, hm⟩ := hn.input _ i hi
    rw [hi'] at hv
    injection hv with hv
    subst hv
    dsimp only at hs'
    subst hs'
    refine ⟨.test (fs.length + 1) (front tx fs ++ ReverseBytes (hexDecodeIgnore i.PreviousTxID) ++ putUint32 i.PreviousTxOutIndex ++ VarInt (UInt64.ofNat s.length) ++ s' ++ putUint32 i.SequenceNumber), [(false, .unlocking fs.length)],
      by simp [readStep, index, hi'], fs ++ [VarInt (UInt64.ofNat s.length) ++ s'], by simp, (List.getElem?_eq_some_iff.1 hi).1, fieldsOK_snoc H hf (.inr ⟨s, s', hs, hm, rfl⟩), ?_⟩
    rw [front_snoc hi]; simp [inputWith]
  | done b => exact ⟨_, _, rfl, h⟩

theorem rOk_signer {S : List InternalSigner} {tx : Transaction} {jobs : List (Nat × Job)} {s : Sys} {pc : RPC} (h : ROk H S tx jobs s.shared.tx pc) (t : Nat) :
    ROk H S tx jobs (step H s t).shared.tx pc := by
  cases pc with
  | begin => exact h
  | test k acc => exact h
  | len k acc =>
    obtain ⟨fs, i, h1, h2, h3, h4, h5⟩ := h
    exact ⟨fs, i, h1, h2, h3, h4, hasScript_step H h5 t⟩
  | body k acc =>
    obtain ⟨fs, i, s, h1, h2, h3, h4, h5, h6⟩ := h
    exact ⟨fs, i, s, h1, h2, h3, h4, h5, hasScript_step H h6 t⟩
  | done b => exact h

/-- The signers' part of a schedule. -/
def signersOf (sch : List Who) : List Nat := sch.filterMap fun | .signer t => some t | .reader _ => none

theorem rinv {tx : Transaction} {S : List InternalSigner} {jobs : List (Nat × Job)} (hs : Sized tx) (hj : HaveSigners S jobs) (n : Nat) (sch : List Who) :
    (rrun H (rstart tx S jobs n) sch).sys = run H (start tx S jobs) (signersOf sch) ∧
    ∀ (r : Nat) (pc : RPC), (rrun H (rstart tx S jobs n) sch).readers[r]? = some pc → ROk H S tx jobs (rrun H (rstart tx S jobs n) sch).sys.shared.tx pc := by
  induction sch using List.reverseRecOn with
  | nil =>
    refine ⟨rfl, fun r pc h => ?_⟩
    have := List.mem_of_getElem? h
    simp only [rrun, List.foldl_nil, rstart, List.mem_replicate] at this
    rw [this.2]; trivial
  | append_singleton sch w ih =>
    obtain ⟨h1, h2⟩ := ih
    have e : rrun H (rstart tx S jobs n) (sch ++ [w]) = rstep H (rrun H (rstart tx S jobs n) sch) w := by simp [rrun]
    rw [e]
    generalize rrun H (rstart tx S jobs n) sch = s at h1 h2 ⊢
    cases w with
    | signer t =>
      refine ⟨?_, fun r pc h => rOk_signer H (h2 r pc h) t⟩
      show step H s.sys t = _
      rw [h1]
      simp [signersOf, run, List.filterMap_append]
    | reader r =>
      have e2 : signersOf (sch ++ [.reader r]) = signersOf sch := by simp [signersOf]
      rw [e2]
      unfold rstep
      dsimp only
      split_ifs with hc
      · exact ⟨h1, h2⟩
      rcases hr : s.readers[r]? with _ | pc
      · exact ⟨h1, h2⟩
      dsimp only
      have hn : Now H S tx jobs s.sys.shared.tx := by rw [h1]; exact now_of H hs hj _
      obtain ⟨pc', acc, k1, k2⟩ := readStep_ok H hn (h2 r pc hr)
      rw [k1]
      refine ⟨h1, fun r' q hq => ?_⟩
      dsimp only at hq ⊢
      by_cases c : r = r'
      · subst c
        rw [List.getElem?_set_self (List.getElem?_eq_some_iff.1 hr).1] at hq
        cases hq; exact k2
      · rw [List.getElem?_set_ne c] at hq; exact h2 r' q hq

/-! ## C106 -/

/-- C106: readers have no effect on the signers: the transaction, the signers' flags, the errors and panics are those of the signers' own steps. No reader ever panics. -/
theorem C106_harmless {tx : Transaction} {S : List InternalSigner} {jobs : List (Nat × Job)} (hs : Sized tx) (hj : HaveSigners S jobs) (n : Nat) (sch : List Who) :
    (rrun H (rstart tx S jobs n) sch).sys = run H (start tx S jobs) (signersOf sch) := (rinv H hs hj n sch).1

/-- C106, for every schedule: what a reader returns is the transaction it was at the start, but for the script fields of the inputs. Each of these is the field of a missing script, or the length of a script
the input can have followed by a script the input can have (not always the same). -/
theorem C106_bytes {tx : Transaction} {S : List InternalSigner} {jobs : List (Nat × Job)} (hs : Sized tx) (hj : HaveSigners S jobs) (n : Nat) (sch : List Who) (r : Nat) (b : Bytes)
    (h : (rrun H (rstart tx S jobs n) sch).readers[r]? = some (.done b)) :
    ∃ fs : List Bytes, fs.length = tx.Inputs.length ∧ (∀ (k : Nat) (f : Bytes), fs[k]? = some f → FieldOK H S tx jobs k f) ∧ b = txWith tx fs := (rinv H hs hj n sch).2 r _ h

/-- C106: if no input can have two different scripts (as when none has one at the start and no two calls sign the same input differently), what a reader returns is the serialisation of a transaction
that differs from the initial one only in unlocking scripts, each of which is the initial one or one that a call gives. -/
theorem C106_whole {tx : Transaction} {S : List InternalSigner} {jobs : List (Nat × Job)} (hs : Sized tx) (hj : HaveSigners S jobs)
    (one : ∀ (k : Nat) (s s' : Bytes), MayShow H S tx jobs k (some s) → MayShow H S tx jobs k (some s') → s = s') (n : Nat) (sch : List Who) (r : Nat) (b : Bytes)
    (h : (rrun H (rstart tx S jobs n) sch).readers[r]? = some (.done b)) :
    ∃ tx', SameButUnlocking tx tx' ∧ (∀ (k : Nat) (i' : Input), tx'.Inputs[k]? = some i' → MayShow H S tx jobs k i'.UnlockingScript) ∧ b = tx'.ToBytes := by
  obtain ⟨fs, hl, hf, rfl⟩ := C106_bytes H hs hj n sch r b h
  have hf' : ∀ k : Nat, k < tx.Inputs.length → ∃ v, MayShow H S tx jobs k v ∧ fs[k]? = some (scriptField v) := by
    intro k hk
    rcases hf k _ (List.getElem?_eq_getElem (by omega)) with ⟨h1, h2⟩ | ⟨s, s', h1, h2, h3⟩
    · exact ⟨none, h1, by rw [List.getElem?_eq_getElem (by omega), h2]; rfl⟩
    · have := one k s s' h1 h2
      subst this
      exact ⟨some s, h1, by rw [List.getElem?_eq_getElem (by omega), h3]; rfl⟩
  choose! v hv hfv using hf'
  let tx' : Transaction := { tx with Inputs := tx.Inputs.mapIdx fun k i => { i with UnlockingScript := v k } }
  refine ⟨tx', ⟨rfl, rfl, rfl, ?_⟩, ?_, ?_⟩
  · apply List.ext_getElem? ; intro k
    simp only [tx', List.getElem?_map, List.getElem?_mapIdx]
    cases tx.Inputs[k]? <;> rfl
  · intro k i' hi'
    simp only [tx', List.getElem?_mapIdx, Option.map_eq_some_iff] at hi'
    obtain ⟨i, hi, rfl⟩ := hi'
    exact hv k (List.getElem?_eq_some_iff.1 hi).1
  · rw [← txWith_own]
    unfold txWith
    have : List.zipWith inputWith tx.Inputs fs = List.zipWith inputWith tx'.Inputs (tx'.Inputs.map fun i => scriptField i.UnlockingScript) := by
      apply List.ext_getElem?
      intro k
      rw [List.getElem?_zipWith, List.getElem?_zipWith]
      simp only [tx', List.getElem?_map, List.getElem?_mapIdx]
      rcases hi : tx.Inputs[k]? with _ | i
      · rfl
      · rw [hfv k (List.getElem?_eq_some_iff.1 hi).1]; rfl
    rw [this]
    simp [tx']

/-! ### A read that no signer interrupts -/

theorem rrun_append (s : RSys) (a b : List Who) : rrun H s (a ++ b) = rrun H (rrun H s a) b := List.foldl_append ..

/-- What is known of a reader that no signer has interrupted. -/
def SOk (tx : Transaction) : RPC → Prop
  | .begin => True
  | .test k acc => ∃ fs, fs = ((tx.Inputs.take k).map fun i => scriptField i.UnlockingScript) ∧ k ≤ tx.Inputs.length ∧ acc = front tx fs
  | .len k acc => ∃ i s, tx.Inputs[k]? = some i ∧ i.UnlockingScript = some s ∧
      acc = front tx ((tx.Inputs.take k).map fun i => scriptField i.UnlockingScript) ++ ReverseBytes (hexDecodeIgnore i.PreviousTxID) ++ putUint32 i.PreviousTxOutIndex
  | .body k acc => ∃ i s, tx.Inputs[k]? = some i ∧ i.UnlockingScript = some s ∧
      acc = front tx ((tx.Inputs.take k).map fun i => scriptField i.UnlockingScript) ++ ReverseBytes (hexDecodeIgnore i.PreviousTxID) ++ putUint32 i.PreviousTxOutIndex ++ VarInt (UInt64.ofNat s.length)
  | .done b => b = tx.ToBytes

theorem front_next {tx : Transaction} {k : Nat} {i : Input} (hi : tx.Inputs[k]? = some i) :
    front tx ((tx.Inputs.take (k + 1)).map fun i => scriptField i.UnlockingScript) =
      front tx ((tx.Inputs.take k).map fun i => scriptField i.UnlockingScript) ++ inputWith i (scriptField i.UnlockingScript) := by
  have hlt := (List.getElem?_eq_some_iff.1 hi).1
  rw [List.take_add_one, hi, Option.toList_some, List.map_append, List.map_singleton, front_snoc]
  rw [List.length_map, List.length_take, Nat.min_eq_left (by omega)]; exact hi

theorem readStep_sok {tx : Transaction} {pc : RPC} (h : SOk tx pc) : ∃ pc' acc, readStep tx pc = .ok (pc', acc) ∧ SOk tx pc' := by
  cases pc with
  | begin => exact ⟨_, _, rfl, [], by simp, Nat.zero_le _, by simp [front]⟩
  | test k acc =>
    obtain ⟨fs, rfl, hle, rfl⟩ := h
    simp only [readStep]
    rcases hi : tx.Inputs[k]? with _ | i
    · refine ⟨_, _, rfl, ?_⟩
      have := List.getElem?_eq_none_iff.1 hi
      show _ = tx.ToBytes
      rw [← txWith_own, List.take_of_length_le this]; rfl
    · dsimp only
      have hlt := (List.getElem?_eq_some_iff.1 hi).1
      rcases hu : i.UnlockingScript with _ | s
      · refine ⟨_, _, rfl, _, rfl, hlt, ?_⟩
        rw [front_next hi, hu]; simp [inputWith, scriptField]
      · exact ⟨_, _, rfl, i, s, hi, hu, rfl⟩
  | len k acc =>
    obtain ⟨i, s, hi, hu, rfl⟩ := h
    simp only [readStep, index, hi, Res.ok_bind, hu]
    exact ⟨_, _, rfl, i, s, hi, hu, rfl⟩
  | body k acc =>
    obtain ⟨i, s, hi, hu, rfl⟩ := h
    simp only [readStep, index, hi, Res.ok_bind, hu]
    refine ⟨_, _, rfl, _, rfl, (List.getElem?_eq_some_iff.1 hi).1, ?_⟩
    rw [front_next hi, hu]; simp [inputWith, scriptField]
  | done b => exact ⟨_, _, rfl, h⟩

/-- C106: a reader that starts at some moment and returns without a signer's step in between (other readers may run) returns the serialisation of the transaction as it is at that moment. -/
theorem C106_snapshot (s : RSys) (r : Nat) (h0 : s.readers[r]? = some .begin) (rs : List Nat) (b : Bytes)
    (h : (rrun H s (rs.map .reader)).readers[r]? = some (.done b)) : b = s.sys.shared.tx.ToBytes := by
  have key : ∀ (rs : List Nat) (s : RSys), (∀ pc, s.readers[r]? = some pc → SOk s.sys.shared.tx pc) →
      (∀ pc, (rrun H s (rs.map .reader)).readers[r]? = some pc → SOk s.sys.shared.tx pc) := by
    intro rs
    induction rs with
    | nil => exact fun s h => h
    | cons u rs ih =>
      intro s hk pc hpc
      have hstep : (rstep H s (.reader u)).sys.shared = s.sys.shared ∧ ∀ pc, (rstep H s (.reader u)).readers[r]? = some pc → SOk s.sys.shared.tx pc := by
        unfold rstep
        dsimp only
        split_ifs
        · exact ⟨rfl, hk⟩
        rcases hu : s.readers[u]? with _ | q
        · exact ⟨rfl, hk⟩
        dsimp only
        rcases hst : readStep s.sys.shared.tx q with ⟨q', acc⟩ | e | _
        · refine ⟨rfl, fun pc hpc => ?_⟩
          dsimp only at hpc
          by_cases c : u = r
          · subst c
            rw [List.getElem?_set_self (List.getElem?_eq_some_iff.1 hu).1] at hpc
            cases hpc
            obtain ⟨p', a', k1, k2⟩ := readStep_sok (hk q hu)
            rw [hst] at k1
            cases k1; exact k2
          · rw [List.getElem?_set_ne c] at hpc; exact hk pc hpc
        · exact ⟨rfl, hk⟩
        · exact ⟨rfl, hk⟩
      have := ih (rstep H s (.reader u)) (by rw [hstep.1]; exact hstep.2) pc hpc
      rw [hstep.1] at this
      exact this
  exact key rs s (fun pc hpc => by rw [h0] at hpc; cases hpc; trivial) _ h

/-! ### Every reader returns -/

/-- The steps a reader still needs, for `n` inputs. -/
def readsLeft (n : Nat) : RPC → Nat
  | .begin => 3 * n + 2
  | .test k _ => 3 * (n - k) + 1
  | .len k _ => 3 * (n - k)
  | .body k _ => 3 * (n - k) - 1
  | .done _ => 0

theorem readsLeft_step {tx : Transaction} {pc pc' : RPC} {acc : List (Bool × Loc)} (h : readStep tx pc = .ok (pc', acc)) :
    readsLeft tx.Inputs.length pc' ≤ readsLeft tx.Inputs.length pc - 1 := by
  cases pc with
  | begin => cases h; simp [readsLeft]
  | test k a =>
    simp only [readStep] at h
    rcases hi : tx.Inputs[k]? with _ | i <;> rw [hi] at h <;> dsimp only at h
    · cases h; simp [readsLeft]
    · have := (List.getElem?_eq_some_iff.1 hi).1
      split at h <;> cases h <;> simp only [readsLeft] <;> omega
  | len k a =>
    simp only [readStep] at h
    obtain ⟨i, -, h⟩ := Res.bind_eq_ok.1 h
    split at h <;> cases h
    simp only [readsLeft]; omega
  | body k a =>
    simp only [readStep] at h
    obtain ⟨i, hi, h⟩ := Res.bind_eq_ok.1 h
    split at h <;> cases h
    have : k < tx.Inputs.length := by
      by_contra c
      simp [index, List.getElem?_eq_none (Nat.le_of_not_lt c)] at hi
    simp only [readsLeft]; omega
  | done b => cases h; simp [readsLeft]

/-- C106: a reader that makes three steps per input and two more returns, whatever the signers do (if the program has not crashed). -/
theorem C106_finishes {tx : Transaction} {S : List InternalSigner} {jobs : List (Nat × Job)} (hs : Sized tx) (hj : HaveSigners S jobs) (n r : Nat) (hr : r < n) (sch : List Who)
    (hc : (rrun H (rstart tx S jobs n) sch).sys.crashed = false) (h : 3 * tx.Inputs.length + 2 ≤ sch.count (.reader r)) :
    ∃ b, (rrun H (rstart tx S jobs n) sch).readers[r]? = some (.done b) := by
  have key : ∃ pc, (rrun H (rstart tx S jobs n) sch).readers[r]? = some pc ∧ readsLeft tx.Inputs.length pc ≤ 3 * tx.Inputs.length + 2 - sch.count (.reader r) := by
    clear h
    induction sch using List.reverseRecOn with
    | nil => exact ⟨.begin, by simp [rrun, rstart, hr], by simp [readsLeft]⟩
    | append_singleton sch w ih =>
      rw [rrun_append] at hc ⊢
      have e : ∀ s : RSys, rrun H s [w] = rstep H s w := fun _ => rfl
      rw [e] at hc ⊢
      have hI := rinv H hs hj n sch
      have hn : Now H S tx jobs (rrun H (rstart tx S jobs n) sch).sys.shared.tx := by rw [hI.1]; exact now_of H hs hj _
      generalize rrun H (rstart tx S jobs n) sch = s at ih hc hI hn ⊢
      cases w with
      | signer t =>
        have hc' : s.sys.crashed = false := by
          by_contra c
          simp only [Bool.not_eq_false] at c
          have : (step H s.sys t).crashed = true := by simp [step, c]
          simp [rstep, this] at hc
        obtain ⟨pc, h1, h2⟩ := ih hc'
        exact ⟨pc, h1, by simpa [List.count_append, List.count_singleton] using h2⟩
      | reader u =>
        have hc' : s.sys.crashed = false := by
          by_contra c
          simp only [Bool.not_eq_false] at c
          simp [rstep, c] at hc
        obtain ⟨pc, h1, h2⟩ := ih hc'
        by_cases c : u = r
        · subst c
          obtain ⟨pc', acc, k1, -⟩ := readStep_ok H hn (hI.2 u pc h1)
          refine ⟨pc', ?_, ?_⟩
          · simp only [rstep, hc', h1, k1]
            exact List.getElem?_set_self (List.getElem?_eq_some_iff.1 h1).1
          · have := readsLeft_step k1
            rw [hn.len] at this
            rw [List.count_append, List.count_singleton_self]
            omega
        · refine ⟨pc, ?_, ?_⟩
          · rcases hu : s.readers[u]? with _ | q
            · simp only [rstep, hc', hu]; exact h1
            obtain ⟨pc', acc, k1, -⟩ := readStep_ok H hn (hI.2 u q hu)
            simp only [rstep, hc', hu, k1]
            exact (List.getElem?_set_ne c).trans h1
          · rw [List.count_append, List.count_singleton]
            simpa [c] using h2
  obtain ⟨pc, h1, h2⟩ := key
  rw [h1]
  have h0 : readsLeft tx.Inputs.length pc = 0 := by omega
  have hb := (rinv H hs hj n sch).2 r pc h1
  cases pc with
  | done b => exact ⟨b, rfl⟩
  | begin => simp [readsLeft] at h0
  | test k acc => simp [readsLeft] at h0
  | len k acc =>
    obtain ⟨fs, i, rfl, hi, -⟩ := hb
    have := (List.getElem?_eq_some_iff.1 hi).1
    simp only [readsLeft] at h0; omega
  | body k acc =>
    obtain ⟨fs, i, s, rfl, hi, -⟩ := hb
    have := (List.getElem?_eq_some_iff.1 hi).1
    simp only [readsLeft] at h0; omega

/-! ### Data races with readers -/

/-- What the accesses of a reader at this point include. -/
def RLog (N r : Nat) (log : List Access) : RPC → Prop
  | .begin => True
  | .test k _ => ⟨r, false, .header⟩ ∈ log ∧ ∀ i < k, ⟨r, false, .unlocking i⟩ ∈ log
  | .len k _ => ⟨r, false, .header⟩ ∈ log ∧ ∀ i < k, ⟨r, false, .unlocking i⟩ ∈ log
  | .body k _ => ⟨r, false, .header⟩ ∈ log ∧ ∀ i < k, ⟨r, false, .unlocking i⟩ ∈ log
  | .done _ => ⟨r, false, .header⟩ ∈ log ∧ ∀ i < N, ⟨r, false, .unlocking i⟩ ∈ log

theorem rLog_mono {N r : Nat} {log log' : List Access} (h : ∀ a ∈ log, a ∈ log') {pc : RPC} (hp : RLog N r log pc) : RLog N r log' pc := by
  cases pc with
  | begin => exact hp
  | _ => exact ⟨h _ hp.1, fun i hi => h _ (hp.2 i hi)⟩

theorem rLog_step {tx : Transaction} {r : Nat} {log : List Access} {pc pc' : RPC} {acc : List (Bool × Loc)} (h : readStep tx pc = .ok (pc', acc)) (hp : RLog tx.Inputs.length r log pc) :
    RLog tx.Inputs.length r (log ++ acc.map fun a => ⟨r, a.1, a.2⟩) pc' ∧ ∀ a ∈ acc, a.1 = false ∧ ∀ g, a.2 ≠ .flag g := by
  have next : ∀ {k : Nat}, (∀ i < k, (⟨r, false, .unlocking i⟩ : Access) ∈ log) → ∀ i < k + 1, (⟨r, false, .unlocking i⟩ : Access) ∈ log ++ [⟨r, false, .unlocking k⟩] := by
    intro k h i hi
    rcases Nat.lt_succ_iff_lt_or_eq.1 hi with c | c
    · exact List.mem_append_left _ (h i c)
    · subst c; simp
  cases pc with
  | begin => cases h; exact ⟨⟨by simp, fun i hi => by omega⟩, by simp⟩
  | test k a =>
    simp only [readStep] at h
    rcases hi : tx.Inputs[k]? with _ | i <;> rw [hi] at h <;> dsimp only at h
    · cases h
      exact ⟨⟨by simp, fun i' hi' => List.mem_append_left _ (hp.2 i' (by have := List.getElem?_eq_none_iff.1 hi; omega))⟩, by simp⟩
    · split at h <;> cases h
      · exact ⟨⟨List.mem_append_left _ hp.1, next hp.2⟩, by simp⟩
      · exact ⟨rLog_mono (N := tx.Inputs.length) (pc := .len k a) (fun _ => List.mem_append_left _) hp, by simp⟩
  | len k a =>
    simp only [readStep] at h
    obtain ⟨i, -, h⟩ := Res.bind_eq_ok.1 h
    split at h <;> cases h
    exact ⟨rLog_mono (N := tx.Inputs.length) (pc := .len k a) (fun _ => List.mem_append_left _) hp, by simp⟩
  | body k a =>
    simp only [readStep] at h
    obtain ⟨i, -, h⟩ := Res.bind_eq_ok.1 h
    split at h <;> cases h
    exact ⟨⟨List.mem_append_left _ hp.1, next hp.2⟩, by simp⟩
  | done b => cases h; exact ⟨rLog_mono (N := tx.Inputs.length) (pc := .done b) (fun _ => List.mem_append_left _) hp, by simp⟩

theorem rlog_inv {tx : Transaction} {S : List InternalSigner} {jobs : List (Nat × Job)} (hs : Sized tx) (hj : HaveSigners S jobs) (n : Nat) (sch : List Who) :
    (∀ a ∈ (rrun H (rstart tx S jobs n) sch).rlog, a.write = false ∧ ∀ g, a.loc ≠ .flag g) ∧
    ∀ (r : Nat) (pc : RPC), (rrun H (rstart tx S jobs n) sch).readers[r]? = some pc → RLog tx.Inputs.length r (rrun H (rstart tx S jobs n) sch).rlog pc := by
  induction sch using List.reverseRecOn with
  | nil =>
    refine ⟨by simp [rrun, rstart], fun r pc h => ?_⟩
    have := List.mem_of_getElem? h
    simp only [rrun, List.foldl_nil, rstart, List.mem_replicate] at this
    rw [this.2]; trivial
  | append_singleton sch w ih =>
    rw [rrun_append]
    have hI := (rinv H hs hj n sch).1
    have hn : Now H S tx jobs (rrun H (rstart tx S jobs n) sch).sys.shared.tx := by rw [hI]; exact now_of H hs hj _
    generalize rrun H (rstart tx S jobs n) sch = s at ih hn ⊢
    show (∀ a ∈ (rstep H s w).rlog, _) ∧ ∀ (r : Nat) (pc : RPC), (rstep H s w).readers[r]? = some pc → RLog _ r (rstep H s w).rlog pc
    cases w with
    | signer t => exact ih
    | reader u =>
      unfold rstep
      dsimp only
      split_ifs
      · exact ih
      rcases hu : s.readers[u]? with _ | q
      · exact ih
      dsimp only
      rcases hst : readStep s.sys.shared.tx q with ⟨q', acc⟩ | e | _
      · have hq := ih.2 u q hu
        rw [← hn.len] at hq
        obtain ⟨k1, k2⟩ := rLog_step hst hq
        rw [hn.len] at k1
        refine ⟨?_, fun r pc hpc => ?_⟩
        · intro a ha
          rcases List.mem_append.1 ha with ha | ha
          · exact ih.1 a ha
          · obtain ⟨x, hx, rfl⟩ := List.mem_map.1 ha
            exact k2 x hx
        · dsimp only at hpc ⊢
          by_cases c : u = r
          · subst c
            rw [List.getElem?_set_self (List.getElem?_eq_some_iff.1 hu).1] at hpc
            cases hpc; exact k1
          · rw [List.getElem?_set_ne c] at hpc
            exact rLog_mono (fun _ => List.mem_append_left _) (ih.2 r pc hpc)
      · exact ih
      · exact ih

/-- C106: readers only read; among themselves they never race. -/
theorem C106_readers_only_read {tx : Transaction} {S : List InternalSigner} {jobs : List (Nat × Job)} (hs : Sized tx) (hj : HaveSigners S jobs) (n : Nat) (sch : List Who) :
    ∀ a ∈ (rrun H (rstart tx S jobs n) sch).rlog, a.write = false := fun a ha => ((rlog_inv H hs hj n sch).1 a ha).1

/-- A step of a reader depends on no unlocking script but the one it records reading. -/
theorem C106_reads_recorded {tx tx' : Transaction} (h : SameButUnlocking tx tx') {pc : RPC} {r : RPC × List (Bool × Loc)} (hr : readStep tx pc = .ok r)
    (hk : ∀ k : Nat, (false, .unlocking k) ∈ r.2 → tx.Inputs[k]? = tx'.Inputs[k]?) : readStep tx' pc = .ok r := by
  have hl := same_length h
  obtain ⟨hv, hlo, ho, hin⟩ := h
  cases pc with
  | begin => simp only [readStep] at hr ⊢; rw [← hv, hl]; exact hr
  | test k a =>
    simp only [readStep] at hr ⊢
    rcases hi : tx.Inputs[k]? with _ | i <;> rw [hi] at hr <;> dsimp only at hr
    · have e : tx'.Inputs[k]? = none := List.getElem?_eq_none (by rw [hl]; exact List.getElem?_eq_none_iff.1 hi)
      rw [e, ← hlo, ← ho]; exact hr
    · have e : tx'.Inputs[k]? = some i := by
        rw [← hi]; symm; apply hk
        split at hr <;> cases hr <;> simp
      rw [e]; exact hr
  | len k a =>
    simp only [readStep] at hr ⊢
    obtain ⟨i, h1, h2⟩ := Res.bind_eq_ok.1 hr
    have e : index tx'.Inputs k = index tx.Inputs k := by
      unfold index; rw [hk]
      split at h2 <;> cases h2; simp
    rw [e]; exact hr
  | body k a =>
    simp only [readStep] at hr ⊢
    obtain ⟨i, h1, h2⟩ := Res.bind_eq_ok.1 hr
    have e : index tx'.Inputs k = index tx.Inputs k := by
      unfold index; rw [hk]
      split at h2 <;> cases h2; simp
    rw [e]; exact hr
  | done b => exact hr

/-- Some call gives an input a script, or goes through the transaction's method and succeeds. -/
def SomeWrite (S : List InternalSigner) (tx : Transaction) (jobs : List (Nat × Job)) : Prop :=
  ∃ j ∈ jobs, (∃ k s, Writes H S tx j k s) ∨ (viaMethod j.2 = true ∧ Returns H S tx j none)

/-- C106: when every signer and a reader have returned, some write of a signer races with a read of that reader if and only if a call has written anything but a flag. -/
theorem C106_races {tx : Transaction} {S : List InternalSigner} {jobs : List (Nat × Job)} (hs : Sized tx) (hj : HaveSigners S jobs) (n : Nat) (sch : List Who) (r : Nat) (b : Bytes)
    (hf : (rrun H (rstart tx S jobs n) sch).sys.finished) (h : (rrun H (rstart tx S jobs n) sch).readers[r]? = some (.done b)) :
    (∃ x ∈ (rrun H (rstart tx S jobs n) sch).sys.log, x.write = true ∧ ∃ y ∈ (rrun H (rstart tx S jobs n) sch).rlog, y.by_ = r ∧ x.loc = y.loc) ↔ SomeWrite H S tx jobs := by
  have hl := (rlog_inv H hs hj n sch).2 r _ h
  have hno : ∀ y ∈ (rrun H (rstart tx S jobs n) sch).rlog, ∀ g, y.loc ≠ .flag g := fun y hy => ((rlog_inv H hs hj n sch).1 y hy).2
  rw [C106_harmless H hs hj n sch] at hf ⊢
  have I := inv H tx S jobs hs hj (signersOf sch)
  constructor
  · rintro ⟨x, hx, hw, y, hy, -, hloc⟩
    obtain ⟨j, a, h1, h2, h3⟩ := I.access x hx
    refine ⟨j, List.mem_of_getElem? h1, ?_⟩
    rcases hlx : x.loc with _ | g | k <;> rw [hlx] at h3 <;> dsimp only at h3
    · exact .inr (h3 hw)
    · exact absurd (hloc.symm.trans hlx) (hno y hy g)
    · obtain ⟨s, hs⟩ := h3.2; exact .inl ⟨k, s, hs⟩
  · rintro ⟨j, hjm, hw⟩
    obtain ⟨t, ht⟩ := List.mem_iff_getElem?.1 hjm
    obtain ⟨h1, -⟩ | ⟨j', a, pc, h1, h2, h3, h4⟩ := I.threads t
    · rw [ht] at h1; cases h1
    rw [ht] at h1; cases h1
    obtain ⟨e, he⟩ := hf.2 _ (List.mem_of_getElem? h3)
    dsimp only at he
    subst he
    obtain ⟨p1, p2, p3, p4, p5, p6⟩ := h4
    rcases hw with ⟨k, s, hw⟩ | ⟨hm, hr⟩
    · exact ⟨_, p5 k s hw, rfl, _, hl.2 k (writes_lt H hw), rfl, rfl⟩
    · have he : e = none := by
        obtain ⟨b, hb, hr⟩ := hr
        obtain ⟨c, hc, p4⟩ := p4
        rw [hb] at hc; cases hc
        rcases j with ⟨g, ⟨m, idx⟩ | m⟩
        · rcases e with _ | e
          · rfl
          · dsimp only at hr p4
            obtain ⟨_, hr⟩ := hr
            rw [hr] at p4; cases p4
        · exact p4
      exact ⟨_, p6 he hm, rfl, _, hl.1, rfl, rfl⟩

/-! ### What a reader can return that it should not -/

/-- `exPair` where input 0 already has a script. -/
def exResign (old : Bytes) : Transaction := { exPair with Inputs := exPair.Inputs.mapIdx fun k i => if k = 0 then { i with UnlockingScript := some old } else i }

/-- A goroutine signs input 0 anew; a reader has read the length of the old script and then reads the new one. -/
def exTorn (old : Bytes) : RSys :=
  rrun toyH (rstart (exResign old) exSigners [(1, .one false 0)] 1) (List.replicate 3 (.reader 0) ++ List.replicate 10 (.signer 0) ++ List.replicate 8 (.reader 0))

/-- C106 is violated when an input is signed anew: everything returns without error, and the reader returns bytes that are the serialisation of no transaction. -/
theorem C106_torn_violated : (exTorn [7, 7, 7]).sys.finished ∧ ∃ b, (exTorn [7, 7, 7]).readers[0]? = some (.done b) ∧
    (Transaction.NewFromBytes (Slice.exact b)).isErr = true ∧ ∀ tx : Transaction, (∀ i ∈ tx.Inputs, IsTxId i.PreviousTxID) → b ≠ tx.ToBytes := by
  obtain ⟨b, hb, hl, he⟩ : ∃ b, (exTorn [7, 7, 7]).readers[0]? = some (.done b) ∧ b.length < 2 ^ 62 ∧ (Transaction.NewFromBytes (Slice.exact b)).isErr = true := by
    have h : ∀ x : Option RPC, (match x with | some (.done b) => decide (b.length < 2 ^ 62) && (Transaction.NewFromBytes (Slice.exact b)).isErr | _ => false) = true →
        ∃ b, x = some (.done b) ∧ b.length < 2 ^ 62 ∧ (Transaction.NewFromBytes (Slice.exact b)).isErr = true := by
      intro x hx
      split at hx
      · rw [Bool.and_eq_true, decide_eq_true_iff] at hx; exact ⟨_, rfl, hx⟩
      · cases hx
    exact h _ (by decide +kernel)
  refine ⟨by decide +kernel, b, hb, he, ?_⟩
  rintro tx ht rfl
  have := C33_parse_serialise tx ht [] (by simpa using hl)
  unfold Slice.exact at he
  rw [this] at he
  cases he

/-- C106 is violated when an input is signed anew: the bytes can be another transaction, with no output at all, that spends an output nobody asked for. -/
theorem C106_other_violated : (exTorn [1]).sys.finished ∧ ∃ b tx', (exTorn [1]).readers[0]? = some (.done b) ∧ Transaction.NewFromBytes (Slice.exact b) = .ok tx' ∧
    tx'.Outputs = [] ∧ exPair.Outputs ≠ [] ∧ ∃ i ∈ tx'.Inputs, ∀ i' ∈ exPair.Inputs, i.PreviousTxID ≠ i'.PreviousTxID := by
  have h : ∀ x : Option RPC, (match x with
      | some (.done b) => (match Transaction.NewFromBytes (Slice.exact b) with
        | .ok tx' => decide (tx'.Outputs = [] ∧ exPair.Outputs ≠ [] ∧ ∃ i ∈ tx'.Inputs, ∀ i' ∈ exPair.Inputs, i.PreviousTxID ≠ i'.PreviousTxID)
        | _ => false)
      | _ => false) = true → ∃ b tx', x = some (.done b) ∧ Transaction.NewFromBytes (Slice.exact b) = .ok tx' ∧
        tx'.Outputs = [] ∧ exPair.Outputs ≠ [] ∧ ∃ i ∈ tx'.Inputs, ∀ i' ∈ exPair.Inputs, i.PreviousTxID ≠ i'.PreviousTxID := by
    intro x hx
    split at hx
    · split at hx
      · rename_i b _ tx' hp
        exact ⟨b, tx', rfl, hp, of_decide_eq_true hx⟩
      · cases hx
    · cases hx
  exact ⟨by decide +kernel, h _ (by decide +kernel)⟩

/-! ### A state that never was -/

/-- One goroutine signs both inputs in turn; a reader passes input 0 before it is signed and input 1 after it is. -/
def exNever : RSys := rrun toyH (rstart exPair exSigners [(1, .auto false)] 1) (List.replicate 2 (.reader 0) ++ List.replicate 30 (.signer 0) ++ List.replicate 4 (.reader 0))

/-- The goroutine alone after `n` steps. -/
def exAlone (n : Nat) : Sys := run toyH (start exPair exSigners [(1, .auto false)]) (List.replicate n 0)

theorem exAlone_of (sch : List Nat) : run toyH (start exPair exSigners [(1, .auto false)]) sch = exAlone (sch.count 0) := by
  have hl : ∀ sch : List Nat, (run toyH (start exPair exSigners [(1, .auto false)]) sch).threads.length = 1 := by
    intro sch
    induction sch using List.reverseRecOn with
    | nil => rfl
    | append_singleton sch t ih =>
      have e : run toyH (start exPair exSigners [(1, .auto false)]) (sch ++ [t]) = step toyH (run toyH (start exPair exSigners [(1, .auto false)]) sch) t := by simp [run]
      rw [e]
      generalize run toyH (start exPair exSigners [(1, .auto false)]) sch = s at ih
      unfold step
      split_ifs
      · exact ih
      split
      · exact ih
      · split
        · simpa using ih
        · exact ih
  induction sch using List.reverseRecOn with
  | nil => rfl
  | append_singleton sch t ih =>
    have e : run toyH (start exPair exSigners [(1, .auto false)]) (sch ++ [t]) = step toyH (run toyH (start exPair exSigners [(1, .auto false)]) sch) t := by simp [run]
    rw [e, List.count_append]
    cases t with
    | zero =>
      rw [ih]
      simp [exAlone, run, List.replicate_succ']
    | succ t =>
      have : (run toyH (start exPair exSigners [(1, .auto false)]) sch).threads[t + 1]? = none := List.getElem?_eq_none (by rw [hl]; omega)
      rw [show List.count 0 [t + 1] = 0 by simp]
      show _ = exAlone (sch.count 0)
      rw [← ih]
      unfold step
      rw [this]
      simp

/-- When the goroutine has returned nothing changes any more. -/
theorem exAlone_end (n : Nat) (h : 30 ≤ n) : (exAlone n).threads = [(1, .done none)] ∧ (exAlone n).shared.tx = (exAlone 30).shared.tx := by
  induction n, h using Nat.le_induction with
  | base => exact ⟨by decide +kernel, rfl⟩
  | succ n _ ih =>
    have e : exAlone (n + 1) = step toyH (exAlone n) 0 := by simp [exAlone, run, List.replicate_succ']
    rw [e, ← ih.2]
    generalize exAlone n = s at ih
    unfold step
    split_ifs
    · exact ⟨ih.1, rfl⟩
    · simp [ih.1, pcStep]

/-- C106 is violated even when no input is signed twice: the reader returns the serialisation of a transaction that the shared one is at no moment of any schedule. -/
theorem C106_never_violated : exNever.sys.finished ∧ ∃ b, exNever.readers[0]? = some (.done b) ∧
    ∀ sch : List Nat, b ≠ (run toyH (start exPair exSigners [(1, .auto false)]) sch).shared.tx.ToBytes := by
  obtain ⟨b, hb, hn⟩ : ∃ b, exNever.readers[0]? = some (.done b) ∧ ∀ n ∈ List.range 31, b ≠ (exAlone n).shared.tx.ToBytes := by
    have h : ∀ x : Option RPC, (match x with | some (.done b) => (List.range 31).all fun n => decide (b ≠ (exAlone n).shared.tx.ToBytes) | _ => false) = true →
        ∃ b, x = some (.done b) ∧ ∀ n ∈ List.range 31, b ≠ (exAlone n).shared.tx.ToBytes := by
      intro x hx
      split at hx
      · exact ⟨_, rfl, fun n hn => of_decide_eq_true (List.all_eq_true.1 hx n hn)⟩
      · cases hx
    exact h _ (by decide +kernel)
  refine ⟨by decide +kernel, b, hb, fun sch => ?_⟩
  rw [exAlone_of]
  by_cases c : sch.count 0 < 31
  · exact hn _ (List.mem_range.2 c)
  · rw [(exAlone_end _ (by omega)).2]
    exact hn 30 (List.mem_range.2 (by omega))

/-! ### Non-vacuity -/

/-- Two goroutines sign, taking turns with a reader. -/
def exReadSch : List Who := (List.replicate 26 [.signer 1, .signer 1, .signer 1, .signer 0, .reader 0]).flatten

def exRead : RSys := rrun toyH (rstart exPair exSigners exJobs 1) exReadSch

theorem exRead_eq : exRead = rrun toyH (rstart exPair exSigners exJobs 1) exReadSch := rfl

theorem exJobs_one (H : HashFns) : ∀ (k : Nat) (s s' : Bytes), MayShow H exSigners exPair exJobs k (some s) → MayShow H exSigners exPair exJobs k (some s') → s = s' := by
  have h0 : ∀ (k : Nat) (s : Bytes), ¬∃ i, exPair.Inputs[k]? = some i ∧ i.UnlockingScript = some s := by
    rintro k s ⟨i, hi, hs⟩
    rcases k with _ | _ | k
    · cases hi; cases hs
    · cases hi; cases hs
    · simp [exPair] at hi
  rintro k s s' (h | ⟨j, hj, u, hw, e⟩) (h' | ⟨j', hj', u', hw', e'⟩)
  · exact absurd h (h0 k s)
  · exact absurd h (h0 k s)
  · exact absurd h' (h0 k s')
  · cases e; cases e'
    exact exJobs_agree H j hj j' hj' k _ _ hw hw'

/-- The hypotheses of C106 hold for it; the reader returns, in the middle, with input 1 signed and the other one not, by `C106_whole`; and its reads race with the signers' writes. -/
example : exRead.sys.finished ∧ ∃ b tx', exRead.readers[0]? = some (.done b) ∧ SameButUnlocking exPair tx' ∧ b = tx'.ToBytes ∧ b ≠ exPair.ToBytes ∧ b ≠ exRead.sys.shared.tx.ToBytes ∧
    ∃ x ∈ exRead.sys.log, x.write = true ∧ ∃ y ∈ exRead.rlog, y.by_ = 0 ∧ x.loc = y.loc := by
  have hj : HaveSigners exSigners exJobs := by unfold HaveSigners; decide
  have hf : exRead.sys.finished := by decide +kernel
  obtain ⟨b, hb⟩ := C106_finishes toyH exPair_sized hj 1 0 (by decide) exReadSch (exRead_eq ▸ hf.1) (by decide +kernel)
  rw [← exRead_eq] at hb
  obtain ⟨tx', h1, -, h2⟩ := C106_whole toyH exPair_sized hj (exJobs_one toyH) 1 exReadSch 0 b (exRead_eq ▸ hb)
  have hne : ∀ b, exRead.readers[0]? = some (.done b) → b ≠ exPair.ToBytes ∧ b ≠ exRead.sys.shared.tx.ToBytes := by
    have h : ∀ x : Option RPC, (match x with | some (.done b) => decide (b ≠ exPair.ToBytes ∧ b ≠ exRead.sys.shared.tx.ToBytes) | _ => false) = true →
        ∀ b, x = some (.done b) → b ≠ exPair.ToBytes ∧ b ≠ exRead.sys.shared.tx.ToBytes := by
      rintro x hx b rfl
      exact of_decide_eq_true hx
    exact h _ (by decide +kernel)
  refine ⟨hf, b, tx', hb, h1, h2, (hne b hb).1, (hne b hb).2, ?_⟩
  rw [exRead_eq]
  refine (C106_races toyH exPair_sized hj 1 exReadSch 0 b (exRead_eq ▸ hf) (exRead_eq ▸ hb)).2 ⟨(1, .one false 0), by decide, .inl ?_⟩
  have h := (C47_domain toyH { toySigner with SigHashFlag := 0x41 } (fun _ => rfl) exPair exPair_sized 0).mpr ⟨_, _, rfl, by decide +kernel, rfl⟩
  rcases hx : ({ toySigner with SigHashFlag := 0x41 } : InternalSigner).Sign toyH 0 exPair with t | e | _ <;> rw [hx] at h
  · obtain ⟨s, rfl⟩ := sign_shape toyH hx
    exact ⟨0, s, _, rfl, rfl, hx⟩
  · cases h
  · cases h

end Verif.Props
