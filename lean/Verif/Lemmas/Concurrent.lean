import Verif.Spec.Concurrent
import Verif.Props.SignAuto
/-!
# The invariant of concurrent signing
-/
namespace Verif.Conc
open Verif Spec Props

/-- The signers as they may be during a run: only flags change, and only from 0 to the default. -/
def Rel (S0 S : List InternalSigner) : Prop :=
  S.length = S0.length ∧ ∀ (g : Nat) (a : InternalSigner), S0[g]? = some a → ∃ f, S[g]? = some { a with SigHashFlag := f } ∧ (f = a.SigHashFlag ∨ f = flagOrDefault a.SigHashFlag)

/-- The flag of signer `g` has its final value. -/
def FlagSet (S0 S : List InternalSigner) (g : Nat) : Prop := ∀ a, S0[g]? = some a → S[g]? = some { a with SigHashFlag := flagOrDefault a.SigHashFlag }

theorem Rel.refl (S : List InternalSigner) : Rel S S := ⟨rfl, fun _ a h => ⟨a.SigHashFlag, h, Or.inl rfl⟩⟩

theorem Rel.store {S0 S : List InternalSigner} (r : Rel S0 S) {g : Nat} {a : InternalSigner} (ha : S0[g]? = some a) :
    Rel S0 (S.set g { a with SigHashFlag := flagOrDefault a.SigHashFlag }) ∧ FlagSet S0 (S.set g { a with SigHashFlag := flagOrDefault a.SigHashFlag }) g ∧
    ∀ g', FlagSet S0 S g' → FlagSet S0 (S.set g { a with SigHashFlag := flagOrDefault a.SigHashFlag }) g' := by
  have hl : g < S.length := by rw [r.1]; exact (List.getElem?_eq_some_iff.1 ha).1
  refine ⟨⟨by rw [List.length_set]; exact r.1, fun g' a' h' => ?_⟩, fun a' h' => ?_, fun g' hs a' h' => ?_⟩
  · by_cases e : g = g'
    · subst e
      rw [ha] at h'; cases h'
      exact ⟨_, List.getElem?_set_self hl, Or.inr rfl⟩
    · rw [List.getElem?_set_ne e]; exact r.2 g' a' h'
  · rw [ha] at h'; cases h'
    exact List.getElem?_set_self hl
  · by_cases e : g = g'
    · subst e
      rw [ha] at h'; cases h'
      exact List.getElem?_set_self hl
    · rw [List.getElem?_set_ne e]; exact hs a' h'

section
variable (H : HashFns) (tx0 : Transaction) (S0 : List InternalSigner)

/-- The facts known inside `Sign`, for goroutine `t` using signer `sg` (initially `a`) on input `idx`. -/
def InSignOk (S : List InternalSigner) (log : List Access) (t sg : Nat) (a : InternalSigner) (idx : UInt32) : InSign → Prop
  | .test => True
  | .store => a.SigHashFlag = 0 ∧ ⟨t, false, .flag sg⟩ ∈ log
  | .hash => FlagSet S0 S sg ∧ ⟨t, false, .flag sg⟩ ∈ log
  | .sign sh => FlagSet S0 S sg ∧ ⟨t, false, .flag sg⟩ ∈ log ∧ ⟨t, false, .header⟩ ∈ log ∧ tx0.GetInputSignatureHash H idx (flagOrDefault a.SigHashFlag) = .ok sh
  | .script sig => FlagSet S0 S sg ∧ ⟨t, false, .flag sg⟩ ∈ log ∧ ⟨t, false, .header⟩ ∈ log ∧
      ∃ sh, tx0.GetInputSignatureHash H idx (flagOrDefault a.SigHashFlag) = .ok sh ∧ a.sign sh.reverse = .ok sig
  | .apply s => FlagSet S0 S sg ∧ ⟨t, false, .flag sg⟩ ∈ log ∧ ⟨t, false, .header⟩ ∈ log ∧ a.Sign H idx tx0 = .ok (withUnlocking tx0 idx.toNat s)
  | .ret none => FlagSet S0 S sg ∧ ⟨t, false, .flag sg⟩ ∈ log ∧ ⟨t, false, .header⟩ ∈ log ∧ ⟨t, true, .unlocking idx.toNat⟩ ∈ log ∧ ∃ s, a.Sign H idx tx0 = .ok (withUnlocking tx0 idx.toNat s)
  | .ret (some e) => FlagSet S0 S sg ∧ ⟨t, false, .flag sg⟩ ∈ log ∧ ⟨t, false, .header⟩ ∈ log ∧ a.Sign H idx tx0 = .err e

theorem InSignOk.mono {S S' : List InternalSigner} {log log' : List Access} {t sg : Nat} {a : InternalSigner} {idx : UInt32} {p : InSign}
    (hS : FlagSet S0 S sg → FlagSet S0 S' sg) (hl : ∀ x ∈ log, x ∈ log') (h : InSignOk H tx0 S0 S log t sg a idx p) : InSignOk H tx0 S0 S' log' t sg a idx p := by
  rcases p with _ | _ | _ | sh | sig | s | (_ | e)
  · trivial
  · exact ⟨h.1, hl _ h.2⟩
  · exact ⟨hS h.1, hl _ h.2⟩
  · exact ⟨hS h.1, hl _ h.2.1, hl _ h.2.2.1, h.2.2.2⟩
  · exact ⟨hS h.1, hl _ h.2.1, hl _ h.2.2.1, h.2.2.2⟩
  · exact ⟨hS h.1, hl _ h.2.1, hl _ h.2.2.1, h.2.2.2⟩
  · exact ⟨hS h.1, hl _ h.2.1, hl _ h.2.2.1, hl _ h.2.2.2.1, h.2.2.2.2⟩
  · exact ⟨hS h.1, hl _ h.2.1, hl _ h.2.2.1, h.2.2.2⟩

/-- What one step may do to the shared objects. -/
inductive Effect (S0 : List InternalSigner) (sg : Nat) (a : InternalSigner) (W : Nat → Bytes → Prop) (σ : Shared) : Shared → List (Bool × Loc) → Prop
  | quiet (acc : List (Bool × Loc)) (h : ∀ x ∈ acc, x = (false, .flag sg) ∨ x = (false, .header)) : Effect S0 sg a W σ σ acc
  | store (h : a.SigHashFlag = 0) :
      Effect S0 sg a W σ { σ with signers := σ.signers.set sg { a with SigHashFlag := flagOrDefault a.SigHashFlag } } [(true, .flag sg)]
  | apply (k : Nat) (s : Bytes) (h : W k s) (hk : k < σ.tx.Inputs.length) :
      Effect S0 sg a W σ { σ with tx := withUnlocking σ.tx k s } [(false, .header), (true, .unlocking k)]

/-- The accesses of a step, in the log. -/
def stamp (t : Nat) (acc : List (Bool × Loc)) : List Access := acc.map fun x => ⟨t, x.1, x.2⟩

theorem withUnlocking_inj {tx : Transaction} {k : Nat} {s s' : Bytes} (hk : k < tx.Inputs.length) (h : withUnlocking tx k s = withUnlocking tx k s') : s = s' := by
  have := congrArg (fun t => (t.Inputs[k]?).map (·.UnlockingScript)) h
  simpa [withUnlocking, List.getElem?_mapIdx, List.getElem?_eq_getElem hk] using this

theorem sign_inRange {a : InternalSigner} {idx : UInt32} {tx tx' : Transaction} (h : a.Sign H idx tx = .ok tx') : idx.toNat < tx.Inputs.length := by
  rw [sign_eq] at h
  obtain ⟨sh, hsh, -⟩ := Res.bind_eq_ok.1 h
  by_contra hc
  simp [Transaction.GetInputSignatureHash, index, List.getElem?_eq_none (Nat.le_of_not_lt hc)] at hsh

theorem same_length {tx tx' : Transaction} (h : SameButUnlocking tx tx') : tx'.Inputs.length = tx.Inputs.length := by
  have := congrArg List.length h.2.2.2
  simpa using this.symm

theorem ofNat_toNat (idx : UInt32) : UInt32.ofNat idx.toNat = idx := by
  apply UInt32.toNat_inj.1; rw [UInt32.toNat_ofNat']; exact Nat.mod_eq_of_lt idx.toNat_lt

/-- One step inside `Sign` keeps the facts, and does one of the three things to the shared objects. -/
theorem signStep_ok (hs : Sized tx0) {σ : Shared} (hT : SameButUnlocking tx0 σ.tx) (hR : Rel S0 σ.signers) {sg t : Nat} {a : InternalSigner} (ha : S0[sg]? = some a)
    {idx : UInt32} {log : List Access} {p : InSign} (hp : InSignOk H tx0 S0 σ.signers log t sg a idx p) {W : Nat → Bytes → Prop}
    (hW : ∀ s, a.Sign H idx tx0 = .ok (withUnlocking tx0 idx.toNat s) → W idx.toNat s) {r : Shared × InSign × List (Bool × Loc)} (h : signStep H σ sg idx p = .ok r) :
    InSignOk H tx0 S0 r.1.signers (log ++ stamp t r.2.2) t sg a idx r.2.1 ∧ Effect S0 sg a W σ r.1 r.2.2 := by
  obtain ⟨f, hf, hff⟩ := hR.2 sg a ha
  have hidx : index σ.signers sg = .ok { a with SigHashFlag := f } := by simp [index, hf]
  have hmem : ∀ (x : Access) (l : List Access), x ∈ log → x ∈ log ++ l := fun x l h => List.mem_append_left _ h
  have hset : FlagSet S0 σ.signers sg → f = flagOrDefault a.SigHashFlag := by
    intro h; have := h a ha; rw [hf] at this; injection this with this; injection this
  have hsh : tx0.GetInputSignatureHash H idx (flagOrDefault a.SigHashFlag) = σ.tx.GetInputSignatureHash H idx (flagOrDefault a.SigHashFlag) := (sighash_same H hs hT idx _).symm
  unfold signStep at h
  rw [hidx, Res.ok_bind] at h
  rcases p with _ | _ | _ | sh | sig | s | e
  · cases h
    refine ⟨?_, .quiet _ (by simp)⟩
    dsimp only
    by_cases h0 : f = 0
    · have h1 : a.SigHashFlag = 0 := by
        rcases hff with h | h
        · rw [← h]; exact h0
        · rw [h] at h0; unfold flagOrDefault at h0; split_ifs at h0 with h2
          · exact h2
          · exact h0
      rw [if_pos h0]
      exact ⟨h1, by simp [stamp]⟩
    · rw [if_neg h0]
      refine ⟨fun b hb => ?_, by simp [stamp]⟩
      rw [ha] at hb; cases hb
      rw [hf]
      have : f = flagOrDefault a.SigHashFlag := by
        rcases hff with h | h
        · unfold flagOrDefault; rw [h] at h0; rw [if_neg h0]; exact h
        · exact h
      rw [this]
  · cases h
    have e : sighash.AllForkID = flagOrDefault a.SigHashFlag := by rw [hp.1]; rfl
    dsimp only
    rw [e]
    exact ⟨⟨(hR.store ha).2.1, hmem _ _ hp.2⟩, .store hp.1⟩
  · rw [hset hp.1] at h hf
    dsimp only at h
    rcases hx : σ.tx.GetInputSignatureHash H idx (flagOrDefault a.SigHashFlag) with sh | e | _ <;> rw [hx] at h <;> cases h
    · exact ⟨⟨hp.1, hmem _ _ hp.2, by simp [stamp], hsh.trans hx⟩, .quiet _ (by simp)⟩
    · refine ⟨⟨hp.1, hmem _ _ hp.2, by simp [stamp], ?_⟩, .quiet _ (by simp)⟩
      rw [sign_eq, hsh, hx]; rfl
  · dsimp only at h
    rw [ReverseBytes_eq] at h
    rcases hx : a.sign sh.reverse with sig | e | _ <;> rw [hx] at h <;> cases h
    · exact ⟨⟨hp.1, hmem _ _ hp.2.1, hmem _ _ hp.2.2.1, sh, hp.2.2.2, hx⟩, .quiet _ (by simp)⟩
    · refine ⟨⟨hp.1, hmem _ _ hp.2.1, hmem _ _ hp.2.2.1, ?_⟩, .quiet _ (by simp)⟩
      rw [sign_eq, hp.2.2.2, Res.ok_bind, hx]; rfl
  · cases h
    obtain ⟨h1, h2, h3, sh, h4, h5⟩ := hp
    refine ⟨⟨h1, hmem _ _ h2, hmem _ _ h3, ?_⟩, .quiet _ (by simp)⟩
    rw [hset h1, sign_eq, h4, Res.ok_bind, h5, Res.ok_bind, applyUnlocking_eq]
    by_contra hc
    simp [Transaction.GetInputSignatureHash, index, List.getElem?_eq_none (Nat.le_of_not_lt hc)] at h4
  · obtain ⟨h1, h2, h3, h4⟩ := hp
    have hk := sign_inRange H h4
    rw [← same_length hT] at hk
    dsimp only at h
    rw [applyUnlocking_eq s hk] at h
    cases h
    exact ⟨⟨h1, hmem _ _ h2, hmem _ _ h3, by simp [stamp], s, h4⟩, .apply _ _ (hW s h4) hk⟩
  · cases h
    refine ⟨?_, .quiet _ (by simp)⟩
    simp only [stamp, List.map_nil, List.append_nil]
    exact hp

/-- The facts known about goroutine `t` with call `j` (signer initially `a`). -/
def PcOk (S : List InternalSigner) (log : List Access) (t : Nat) (j : Nat × Job) (a : InternalSigner) : PC → Prop
  | .one m idx p => j.2 = .one m idx ∧ InSignOk H tx0 S0 S log t j.1 a idx p
  | .autoTest m => j.2 = .auto m
  | .autoStore m => j.2 = .auto m ∧ a.SigHashFlag = 0 ∧ ⟨t, false, .flag j.1⟩ ∈ log
  | .range m => j.2 = .auto m ∧ FlagSet S0 S j.1 ∧ ⟨t, false, .flag j.1⟩ ∈ log
  | .scan m n i => j.2 = .auto m ∧ FlagSet S0 S j.1 ∧ ⟨t, false, .flag j.1⟩ ∈ log ∧ ⟨t, false, .header⟩ ∈ log ∧ n = tx0.Inputs.length ∧ i ≤ n ∧
      ∀ k s, k < i → Writes H S0 tx0 j k s → ⟨t, true, .unlocking k⟩ ∈ log
  | .inAuto m n i p => j.2 = .auto m ∧ FlagSet S0 S j.1 ∧ ⟨t, false, .flag j.1⟩ ∈ log ∧ ⟨t, false, .header⟩ ∈ log ∧ n = tx0.Inputs.length ∧ i < n ∧
      (∀ k s, k < i → Writes H S0 tx0 j k s → ⟨t, true, .unlocking k⟩ ∈ log) ∧ Addresses H a tx0 j.2 i ∧ InSignOk H tx0 S0 S log t j.1 a (UInt32.ofNat i) p
  | .assign => viaMethod j.2 = true ∧ FlagSet S0 S j.1 ∧ ⟨t, false, .flag j.1⟩ ∈ log ∧ ⟨t, false, .header⟩ ∈ log ∧ Returns H S0 tx0 j none ∧
      ∀ k s, Writes H S0 tx0 j k s → ⟨t, true, .unlocking k⟩ ∈ log
  | .done e => FlagSet S0 S j.1 ∧ ⟨t, false, .flag j.1⟩ ∈ log ∧ ⟨t, false, .header⟩ ∈ log ∧ Returns H S0 tx0 j e ∧
      (∀ k s, Writes H S0 tx0 j k s → ⟨t, true, .unlocking k⟩ ∈ log) ∧ (e = none → viaMethod j.2 = true → ⟨t, true, .header⟩ ∈ log)

theorem PcOk.mono {S S' : List InternalSigner} {log log' : List Access} {t : Nat} {j : Nat × Job} {a : InternalSigner} {pc : PC}
    (hS : FlagSet S0 S j.1 → FlagSet S0 S' j.1) (hl : ∀ x ∈ log, x ∈ log') (h : PcOk H tx0 S0 S log t j a pc) : PcOk H tx0 S0 S' log' t j a pc := by
  cases pc with
  | one m idx p => exact ⟨h.1, h.2.mono H tx0 S0 hS hl⟩
  | autoTest m => exact h
  | autoStore m => exact ⟨h.1, h.2.1, hl _ h.2.2⟩
  | range m => exact ⟨h.1, hS h.2.1, hl _ h.2.2⟩
  | scan m n i =>
    obtain ⟨h1, h2, h3, h4, h5, h6, h7⟩ := h
    exact ⟨h1, hS h2, hl _ h3, hl _ h4, h5, h6, fun k s hk hw => hl _ (h7 k s hk hw)⟩
  | inAuto m n i p =>
    obtain ⟨h1, h2, h3, h4, h5, h6, h7, h8, h9⟩ := h
    exact ⟨h1, hS h2, hl _ h3, hl _ h4, h5, h6, fun k s hk hw => hl _ (h7 k s hk hw), h8, h9.mono H tx0 S0 hS hl⟩
  | assign =>
    obtain ⟨h1, h2, h3, h4, h5, h6⟩ := h
    exact ⟨h1, hS h2, hl _ h3, hl _ h4, h5, fun k s hw => hl _ (h6 k s hw)⟩
  | done e =>
    obtain ⟨h1, h2, h3, h4, h5, h6⟩ := h
    exact ⟨hS h1, hl _ h2, hl _ h3, h4, fun k s hw => hl _ (h5 k s hw), fun x y => hl _ (h6 x y)⟩

/-- What one goroutine's step does: one of the three effects of `Effect`, or the assignment `*bt = *signedTx`. -/
def StepEffect (j : Nat × Job) (a : InternalSigner) (σ σ' : Shared) (acc : List (Bool × Loc)) : Prop :=
  Effect S0 j.1 a (Writes H S0 tx0 j) σ σ' acc ∨
    (σ' = σ ∧ acc = [(false, .header), (true, .header)] ∧ viaMethod j.2 = true ∧ Returns H S0 tx0 j none)

theorem writes_one {j : Nat × Job} {a : InternalSigner} (ha : S0[j.1]? = some a) {m : Bool} {idx : UInt32} (hj : j.2 = .one m idx) {s : Bytes}
    (h : a.Sign H idx tx0 = .ok (withUnlocking tx0 idx.toNat s)) : Writes H S0 tx0 j idx.toNat s :=
  ⟨a, ha, by rw [hj]; rfl, by rw [ofNat_toNat]; exact h⟩

theorem writes_of_one {j : Nat × Job} {a : InternalSigner} (ha : S0[j.1]? = some a) {m : Bool} {idx : UInt32} (hj : j.2 = .one m idx) {k : Nat} {s : Bytes}
    (h : Writes H S0 tx0 j k s) : k = idx.toNat ∧ a.Sign H idx tx0 = .ok (withUnlocking tx0 idx.toNat s) := by
  obtain ⟨b, hb, h1, h2⟩ := h
  rw [ha] at hb; cases hb
  rw [hj] at h1
  cases h1
  rw [ofNat_toNat] at h2
  exact ⟨rfl, h2⟩

theorem addresses_of {a : InternalSigner} {m : Bool} {i : Nat} {inp : Input} (hi : tx0.Inputs[i]? = some inp)
    (h : hexEncode (match GetPublicKeyHash inp.PreviousTxScript with | .ok h => h | _ => []) = hexEncode (Hash160 H a.pubKey)) : Addresses H a tx0 (.auto m) i := by
  have h1 := hexEncode_inj h
  rcases hg : GetPublicKeyHash inp.PreviousTxScript with x | e | _ <;> rw [hg] at h1
  · dsimp only at h1
    rw [h1] at hg
    obtain ⟨sc, h2, h3⟩ := (getPublicKeyHash_ok_iff _ _).1 hg
    exact ⟨inp, sc, hi, h2, h3⟩
  all_goals
    exfalso
    have := H.ripemd160_length (H.sha256 a.pubKey)
    have h2 : ([] : Bytes) = H.ripemd160 (H.sha256 a.pubKey) := h1
    rw [← h2] at this; simp at this

theorem of_addresses {a : InternalSigner} {m : Bool} {i : Nat} {inp : Input} (hi : tx0.Inputs[i]? = some inp) (h : Addresses H a tx0 (.auto m) i) :
    GetPublicKeyHash inp.PreviousTxScript = .ok (Hash160 H a.pubKey) := by
  obtain ⟨i', sc, h1, h2, h3⟩ := h
  rw [hi] at h1; cases h1
  exact (getPublicKeyHash_ok_iff _ _).2 ⟨sc, h2, h3⟩

/-- One step of a goroutine keeps its facts. -/
theorem pcStep_ok (hs : Sized tx0) {σ : Shared} (hT : SameButUnlocking tx0 σ.tx) (hR : Rel S0 σ.signers) {t : Nat} {j : Nat × Job} {a : InternalSigner} (ha : S0[j.1]? = some a)
    {log : List Access} {pc : PC} (hp : PcOk H tx0 S0 σ.signers log t j a pc) {r : Shared × PC × List (Bool × Loc)} (h : pcStep H σ j.1 pc = .ok r) :
    PcOk H tx0 S0 r.1.signers (log ++ stamp t r.2.2) t j a r.2.1 ∧ StepEffect H tx0 S0 j a σ r.1 r.2.2 := by
  obtain ⟨f, hf, hff⟩ := hR.2 j.1 a ha
  have hidx : index σ.signers j.1 = .ok { a with SigHashFlag := f } := by simp [index, hf]
  have hmem : ∀ (x : Access) (l : List Access), x ∈ log → x ∈ log ++ l := fun x l h => List.mem_append_left _ h
  have quiet0 : StepEffect H tx0 S0 j a σ σ [] := Or.inl (.quiet _ (by simp))
  have hnil : log ++ stamp t [] = log := by simp [stamp]
  cases pc with
  | one m idx p =>
    obtain ⟨hj, hp⟩ := hp
    by_cases hret : ∃ e, p = .ret e
    · obtain ⟨_ | e, rfl⟩ := hret
      · cases h
        refine ⟨?_, quiet0⟩
        dsimp only
        rw [hnil]
        obtain ⟨h1, h2, h3, h4, s, h5⟩ := hp
        have hret : Returns H S0 tx0 j none := ⟨a, ha, by rw [hj]; exact ⟨_, h5⟩⟩
        have hw : ∀ k s, Writes H S0 tx0 j k s → ⟨t, true, .unlocking k⟩ ∈ log := by
          intro k s' hw
          obtain ⟨rfl, -⟩ := writes_of_one H tx0 S0 ha hj hw
          exact h4
        rcases m with _ | _
        · exact ⟨h1, h2, h3, hret, hw, fun _ hm => by rw [hj] at hm; cases hm⟩
        · exact ⟨by rw [hj]; rfl, h1, h2, h3, hret, hw⟩
      · cases h
        refine ⟨?_, quiet0⟩
        dsimp only
        rw [hnil]
        obtain ⟨h1, h2, h3, h4⟩ := hp
        refine ⟨h1, h2, h3, ⟨a, ha, by rw [hj]; exact h4⟩, ?_, by simp⟩
        intro k s' hw
        obtain ⟨-, hw⟩ := writes_of_one H tx0 S0 ha hj hw
        rw [h4] at hw; cases hw
    · have h' : pcStep H σ j.1 (.one m idx p) = (signStep H σ j.1 idx p >>= fun r => pure (r.1, .one m idx r.2.1, r.2.2)) := by
        cases p <;> first | rfl | exact absurd ⟨_, rfl⟩ hret
      rw [h'] at h
      obtain ⟨q, hq, h⟩ := Res.bind_eq_ok.1 h
      cases h
      obtain ⟨h1, h2⟩ := signStep_ok H tx0 S0 hs hT hR ha hp (W := Writes H S0 tx0 j) (fun s hs => writes_one H tx0 S0 ha hj hs) hq
      exact ⟨⟨hj, h1⟩, Or.inl h2⟩
  | autoTest m =>
    simp only [pcStep, hidx, Res.ok_bind] at h
    cases h
    refine ⟨?_, Or.inl (.quiet _ (by simp))⟩
    dsimp only
    by_cases h0 : f = 0
    · have h1 : a.SigHashFlag = 0 := by
        rcases hff with h | h
        · rw [← h]; exact h0
        · rw [h] at h0; unfold flagOrDefault at h0; split_ifs at h0 with h2
          · exact h2
          · exact h0
      rw [if_pos h0]
      exact ⟨hp, h1, by simp [stamp]⟩
    · rw [if_neg h0]
      refine ⟨hp, fun b hb => ?_, by simp [stamp]⟩
      rw [ha] at hb; cases hb
      rw [hf]
      have : f = flagOrDefault a.SigHashFlag := by
        rcases hff with h | h
        · unfold flagOrDefault; rw [h] at h0; rw [if_neg h0]; exact h
        · exact h
      rw [this]
  | autoStore m =>
    simp only [pcStep, hidx, Res.ok_bind] at h
    cases h
    have e : sighash.AllForkID = flagOrDefault a.SigHashFlag := by rw [hp.2.1]; rfl
    dsimp only
    rw [e]
    exact ⟨⟨hp.1, (hR.store ha).2.1, hmem _ _ hp.2.2⟩, Or.inl (.store hp.2.1)⟩
  | range m =>
    cases h
    exact ⟨⟨hp.1, hp.2.1, hmem _ _ hp.2.2, by simp [stamp], same_length hT, Nat.zero_le _, fun k s hk => absurd hk (Nat.not_lt_zero _)⟩, Or.inl (.quiet _ (by simp))⟩
  | scan m n i =>
    obtain ⟨h1, h2, h3, h4, h5, h6, h7⟩ := hp
    by_cases hlt : i < n
    · simp only [pcStep, if_pos hlt, hidx, Res.ok_bind] at h
      obtain ⟨inp, hi, h⟩ := Res.bind_eq_ok.1 h
      have hi' : σ.tx.Inputs[i]? = some inp := by
        unfold index at hi; rcases hx : σ.tx.Inputs[i]? with _ | y <;> rw [hx] at hi <;> cases hi; rfl
      obtain ⟨hn, -⟩ | ⟨i0, i1, hi0, hi1, -, hps⟩ := input_same hT i
      · rw [List.getElem?_eq_none_iff] at hn; omega
      rw [hi'] at hi1; cases hi1
      have split : (hexEncode (match GetPublicKeyHash inp.PreviousTxScript with | .ok h => h | _ => []) = hexEncode (Hash160 H a.pubKey) ∧ r = (σ, PC.inAuto m n i .test, [])) ∨
          (¬ hexEncode (match GetPublicKeyHash inp.PreviousTxScript with | .ok h => h | _ => []) = hexEncode (Hash160 H a.pubKey) ∧ r = (σ, PC.scan m n (i + 1), [])) := by
        rcases hg : GetPublicKeyHash inp.PreviousTxScript with x | e | _ <;> rw [hg] at h <;> dsimp only at h ⊢
        · by_cases c : hexEncode x = hexEncode (Hash160 H a.pubKey)
          · rw [if_pos c] at h; cases h; exact Or.inl ⟨c, rfl⟩
          · rw [if_neg c] at h; cases h; exact Or.inr ⟨c, rfl⟩
        · by_cases c : hexEncode [] = hexEncode (Hash160 H a.pubKey)
          · rw [if_pos c] at h; cases h; exact Or.inl ⟨c, rfl⟩
          · rw [if_neg c] at h; cases h; exact Or.inr ⟨c, rfl⟩
        · cases h
      rw [← hps] at split
      rcases split with ⟨c, rfl⟩ | ⟨c, rfl⟩
      · refine ⟨?_, quiet0⟩
        dsimp only
        rw [hnil]
        exact ⟨h1, h2, h3, h4, h5, hlt, h7, by rw [h1]; exact addresses_of H tx0 hi0 c, trivial⟩
      · refine ⟨?_, quiet0⟩
        dsimp only
        rw [hnil]
        refine ⟨h1, h2, h3, h4, h5, hlt, fun k s hk hw => ?_⟩
        by_cases e : k = i
        · subst e
          obtain ⟨b, hb, hadd, -⟩ := hw
          rw [ha] at hb; cases hb
          rw [h1] at hadd
          rw [of_addresses H tx0 hi0 hadd] at c
          exact absurd rfl c
        · exact h7 k s (by omega) hw
    · simp only [pcStep, if_neg hlt] at h
      cases h
      refine ⟨?_, quiet0⟩
      dsimp only
      rw [hnil]
      have hret : Returns H S0 tx0 j none := ⟨a, ha, by rw [h1]⟩
      have hw : ∀ k s, Writes H S0 tx0 j k s → ⟨t, true, .unlocking k⟩ ∈ log := by
        intro k s hw
        refine h7 k s ?_ hw
        obtain ⟨b, hb, hadd, -⟩ := hw
        rw [h1] at hadd
        obtain ⟨x, -, hx, -⟩ := hadd
        have := (List.getElem?_eq_some_iff.1 hx).1
        omega
      rcases m with _ | _
      · exact ⟨h2, h3, h4, hret, hw, fun _ hm => by rw [h1] at hm; cases hm⟩
      · exact ⟨by rw [h1]; rfl, h2, h3, h4, hret, hw⟩
  | inAuto m n i p =>
    obtain ⟨h1, h2, h3, h4, h5, h6, h7, h8, hp⟩ := hp
    have hsz : i < 2 ^ 31 := by have := hs.1; omega
    have hi32 : (UInt32.ofNat i).toNat = i := by rw [UInt32.toNat_ofNat']; exact Nat.mod_eq_of_lt (by omega)
    by_cases hret : ∃ e, p = .ret e
    · obtain ⟨e, rfl⟩ := hret
      cases h
      refine ⟨?_, quiet0⟩
      dsimp only
      rw [hnil]
      refine ⟨h1, h2, h3, h4, h5, h6, fun k s hk hw => ?_⟩
      by_cases ek : k = i
      · subst ek
        obtain ⟨b, hb, -, hsg⟩ := hw
        rw [ha] at hb; cases hb
        rcases e with _ | e
        · have := hp.2.2.2.1
          rw [hi32] at this; exact this
        · have := hp.2.2.2
          rw [hsg] at this; cases this
      · exact h7 k s (by omega) hw
    · have h' : pcStep H σ j.1 (.inAuto m n i p) = (signStep H σ j.1 (UInt32.ofNat i) p >>= fun r => pure (r.1, .inAuto m n i r.2.1, r.2.2)) := by
        cases p <;> first | rfl | exact absurd ⟨_, rfl⟩ hret
      rw [h'] at h
      obtain ⟨q, hq, h⟩ := Res.bind_eq_ok.1 h
      cases h
      obtain ⟨q1, q2⟩ := signStep_ok H tx0 S0 hs hT hR ha hp (W := Writes H S0 tx0 j)
        (fun s hs => by rw [hi32] at hs ⊢; exact ⟨a, ha, h8, hs⟩) hq
      have hfs : FlagSet S0 q.1.signers j.1 := by
        obtain ⟨qs, qp, qa⟩ := q
        dsimp only at q2 ⊢
        cases q2 with
        | quiet => exact h2
        | store => exact (hR.store ha).2.1
        | apply => exact h2
      exact ⟨⟨h1, hfs, hmem _ _ h3, hmem _ _ h4, h5, h6, fun k s hk hw => hmem _ _ (h7 k s hk hw), h8, q1⟩, Or.inl q2⟩
  | assign =>
    cases h
    obtain ⟨h1, h2, h3, h4, h5, h6⟩ := hp
    exact ⟨⟨h2, hmem _ _ h3, hmem _ _ h4, h5, fun k s hw => hmem _ _ (h6 k s hw), fun _ _ => by simp [stamp]⟩, Or.inr ⟨rfl, rfl, h1, h5⟩⟩
  | done e =>
    cases h
    refine ⟨?_, quiet0⟩
    dsimp only
    rw [hnil]
    exact hp

/-- The value of input `k`'s unlocking script: the initial one if nobody has written it, else the script of the last writer. -/
def UnlockingOk (jobs : List (Nat × Job)) (tx : Transaction) (log : List Access) (k : Nat) : Prop :=
  match lastWriter log k with
  | none => ∀ i, tx0.Inputs[k]? = some i → tx.Inputs[k]? = some i
  | some t => ∃ j s, jobs[t]? = some j ∧ Writes H S0 tx0 j k s ∧ ∃ i, tx0.Inputs[k]? = some i ∧ tx.Inputs[k]? = some { i with UnlockingScript := some s }

/-- An access that goroutine `x.by_` may make. -/
def AccessOk (jobs : List (Nat × Job)) (x : Access) : Prop :=
  ∃ j a, jobs[x.by_]? = some j ∧ S0[j.1]? = some a ∧
    match x.loc with
    | .flag g => g = j.1 ∧ (x.write = true → a.SigHashFlag = 0)
    | .unlocking k => x.write = true ∧ ∃ s, Writes H S0 tx0 j k s
    | .header => x.write = true → viaMethod j.2 = true ∧ Returns H S0 tx0 j none

/-- The invariant of every run. -/
structure Inv (jobs : List (Nat × Job)) (s : Sys) : Prop where
  same : SameButUnlocking tx0 s.shared.tx
  rel : Rel S0 s.shared.signers
  threads : ∀ t : Nat, (jobs[t]? = none ∧ s.threads[t]? = none) ∨
    ∃ j a pc, jobs[t]? = some j ∧ S0[j.1]? = some a ∧ s.threads[t]? = some (j.1, pc) ∧ PcOk H tx0 S0 s.shared.signers s.log t j a pc
  unlocking : ∀ k, UnlockingOk H tx0 S0 jobs s.shared.tx s.log k
  access : ∀ x ∈ s.log, AccessOk H tx0 S0 jobs x
  stored : ∀ (g : Nat) (a : InternalSigner), S0[g]? = some a → s.shared.signers[g]? = some a ∨ ∃ t, ⟨t, true, .flag g⟩ ∈ s.log

theorem lastWriter_append (log : List Access) (k : Nat) (l : List Access) (h : ∀ x ∈ l, ¬(x.write = true ∧ x.loc = .unlocking k)) : lastWriter (log ++ l) k = lastWriter log k := by
  unfold lastWriter
  rw [List.filter_append]
  have : l.filter (fun a => a.write && a.loc == .unlocking k) = [] := by
    rw [List.filter_eq_nil_iff]
    intro x hx
    simpa using h x hx
  rw [this, List.append_nil]

theorem lastWriter_write (log : List Access) (k t : Nat) (l : List Access) : lastWriter (log ++ (l ++ [⟨t, true, .unlocking k⟩])) k = some t := by
  unfold lastWriter
  rw [← List.append_assoc, List.filter_append]
  simp

theorem Inv.step {jobs : List (Nat × Job)} (hs : Sized tx0) {s : Sys} (I : Inv H tx0 S0 jobs s) (t : Nat) : Inv H tx0 S0 jobs (step H s t) := by
  unfold Conc.step
  by_cases hc : s.crashed = true
  · rw [if_pos hc]; exact I
  rw [if_neg hc]
  obtain ⟨-, hn⟩ | ⟨j, a, pc, hj, ha, ht, hpc⟩ := I.threads t
  · rw [hn]; exact I
  rw [ht]
  dsimp only
  rcases hp : pcStep H s.shared j.1 pc with r | e | _
  rotate_left
  · exact ⟨I.same, I.rel, I.threads, I.unlocking, I.access, I.stored⟩
  · exact ⟨I.same, I.rel, I.threads, I.unlocking, I.access, I.stored⟩
  obtain ⟨σ, pc', acc⟩ := r
  obtain ⟨hpc', eff⟩ := pcStep_ok H tx0 S0 hs I.same I.rel ha hpc hp
  dsimp only at hpc' eff ⊢
  have hmem : ∀ x ∈ s.log, x ∈ s.log ++ stamp t acc := fun x h => List.mem_append_left _ h
  -- what the effect gives
  have facts : SameButUnlocking tx0 σ.tx ∧ Rel S0 σ.signers ∧ (∀ g, FlagSet S0 s.shared.signers g → FlagSet S0 σ.signers g) ∧
      (∀ k, UnlockingOk H tx0 S0 jobs σ.tx (s.log ++ stamp t acc) k) ∧ (∀ x ∈ stamp t acc, AccessOk H tx0 S0 jobs x) ∧
      (∀ (g : Nat) (b : InternalSigner), S0[g]? = some b → σ.signers[g]? = some b ∨ ∃ t', ⟨t', true, .flag g⟩ ∈ s.log ++ stamp t acc) := by
    have stored' : ∀ (g : Nat) (b : InternalSigner), S0[g]? = some b → s.shared.signers[g]? = some b ∨ ∃ t', ⟨t', true, .flag g⟩ ∈ s.log ++ stamp t acc := by
      intro g b hb
      rcases I.stored g b hb with h | ⟨t', h⟩
      · exact Or.inl h
      · exact Or.inr ⟨t', hmem _ h⟩
    rcases eff with eff | ⟨rfl, rfl, hm, hr⟩
    · cases eff with
      | quiet _ h =>
        refine ⟨I.same, I.rel, fun g h => h, fun k => ?_, fun x hx => ?_, stored'⟩
        · have hno : ∀ x ∈ stamp t acc, ¬(x.write = true ∧ x.loc = .unlocking k) := by
            intro x hx hw
            simp only [stamp, List.mem_map] at hx
            obtain ⟨y, hy, rfl⟩ := hx
            rcases h y hy with rfl | rfl <;> simp at hw
          have := I.unlocking k
          unfold UnlockingOk at this ⊢
          rw [lastWriter_append _ _ _ hno]
          exact this
        · simp only [stamp, List.mem_map] at hx
          obtain ⟨y, hy, rfl⟩ := hx
          rcases h y hy with rfl | rfl
          · exact ⟨j, a, hj, ha, rfl, by simp⟩
          · exact ⟨j, a, hj, ha, by simp⟩
      | store h =>
        obtain ⟨r1, r2, r3⟩ := I.rel.store ha
        refine ⟨I.same, r1, r3, fun k => ?_, fun x hx => ?_, fun g b hb => ?_⟩
        · have := I.unlocking k
          unfold UnlockingOk at this ⊢
          rw [lastWriter_append _ _ _ (by simp [stamp])]
          exact this
        · simp only [stamp, List.map_cons, List.map_nil, List.mem_singleton] at hx
          subst hx
          exact ⟨j, a, hj, ha, rfl, fun _ => h⟩
        · by_cases e : j.1 = g
          · subst e
            exact Or.inr ⟨t, by simp [stamp]⟩
          · dsimp only
            rw [List.getElem?_set_ne e]
            exact stored' g b hb
      | apply k0 s0 hw hk =>
        have hlen := same_length I.same
        refine ⟨I.same.trans (withUnlocking_same _ _ _), I.rel, fun g h => h, fun k => ?_, fun x hx => ?_, stored'⟩
        · by_cases e : k = k0
          · subst e
            have hl : lastWriter (s.log ++ stamp t [(false, .header), (true, .unlocking k)]) k = some t := lastWriter_write s.log k t [⟨t, false, .header⟩]
            unfold UnlockingOk
            rw [hl]
            dsimp only
            obtain ⟨h1, -⟩ | ⟨i0, i1, hi0, hi1, -⟩ := input_same I.same k
            · rw [List.getElem?_eq_none_iff] at h1; omega
            refine ⟨j, s0, hj, hw, i0, hi0, ?_⟩
            have hsame := congrArg (·[k]?) I.same.2.2.2
            simp only [List.getElem?_map, hi0, hi1, Option.map_some, Option.some.injEq, Input.mk.injEq] at hsame
            obtain ⟨e1, e2, e3, e4, -, e6⟩ := hsame
            simp only [withUnlocking, List.getElem?_mapIdx, hi1, Option.map_some, if_true, e1, e2, e3, e4, e6]
          · have := I.unlocking k
            unfold UnlockingOk at this ⊢
            rw [lastWriter_append _ _ _ (by simp [stamp]; exact fun h => e h.symm)]
            have hsame : (withUnlocking s.shared.tx k0 s0).Inputs[k]? = s.shared.tx.Inputs[k]? := by
              simp only [withUnlocking, List.getElem?_mapIdx, if_neg e]
              cases s.shared.tx.Inputs[k]? <;> rfl
            dsimp only
            rw [hsame]
            exact this
        · simp only [stamp, List.map_cons, List.map_nil, List.mem_cons, List.not_mem_nil, or_false] at hx
          rcases hx with rfl | rfl
          · exact ⟨j, a, hj, ha, by simp⟩
          · exact ⟨j, a, hj, ha, rfl, s0, hw⟩
    · refine ⟨I.same, I.rel, fun g h => h, fun k => ?_, fun x hx => ?_, stored'⟩
      · have := I.unlocking k
        unfold UnlockingOk at this ⊢
        rw [lastWriter_append _ _ _ (by simp [stamp])]
        exact this
      · simp only [stamp, List.map_cons, List.map_nil, List.mem_cons, List.not_mem_nil, or_false] at hx
        rcases hx with rfl | rfl
        · exact ⟨j, a, hj, ha, by simp⟩
        · exact ⟨j, a, hj, ha, fun _ => ⟨hm, hr⟩⟩
  obtain ⟨f1, f2, f3, f4, f5, f6⟩ := facts
  refine ⟨f1, f2, fun t' => ?_, f4, fun x hx => ?_, f6⟩
  · dsimp only
    by_cases e : t = t'
    · subst e
      refine Or.inr ⟨j, a, pc', hj, ha, ?_, hpc'⟩
      rw [List.getElem?_set_self (List.getElem?_eq_some_iff.1 ht).1]
    · rw [List.getElem?_set_ne e]
      obtain ⟨h1, h2⟩ | ⟨j', a', pc2, h1, h2, h3, h4⟩ := I.threads t'
      · exact Or.inl ⟨h1, h2⟩
      · exact Or.inr ⟨j', a', pc2, h1, h2, h3, h4.mono H tx0 S0 (f3 _) hmem⟩
  · rcases List.mem_append.1 hx with hx | hx
    · exact I.access x hx
    · exact f5 x hx

theorem Inv.run {jobs : List (Nat × Job)} (hs : Sized tx0) {s : Sys} (I : Inv H tx0 S0 jobs s) (sch : List Nat) : Inv H tx0 S0 jobs (run H s sch) := by
  induction sch generalizing s with
  | nil => exact I
  | cons t sch ih => exact ih (I.step H tx0 S0 hs t)

theorem Inv.start {jobs : List (Nat × Job)} (hj : ∀ j ∈ jobs, j.1 < S0.length) : Inv H tx0 S0 jobs (start tx0 S0 jobs) := by
  refine ⟨SameButUnlocking.refl _, Rel.refl _, fun t => ?_, fun k => ?_, by simp [Conc.start], fun g a h => Or.inl h⟩
  · simp only [Conc.start, List.getElem?_map]
    rcases h : jobs[t]? with _ | j
    · exact Or.inl ⟨rfl, rfl⟩
    · refine Or.inr ⟨j, S0[j.1]'(hj j (List.mem_of_getElem? h)), j.2.start, rfl, List.getElem?_eq_getElem _, rfl, ?_⟩
      rcases j with ⟨g, ⟨m, idx⟩ | m⟩
      · exact ⟨rfl, trivial⟩
      · rfl
  · exact fun i h => h

end
end Verif.Conc
