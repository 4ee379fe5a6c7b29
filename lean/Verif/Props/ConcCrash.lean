import Verif.Props.Concurrent
import Mathlib.Data.List.Induction
/-!
# C87: when goroutines that sign one transaction panic

A panic of one goroutine ends the whole program. It does so exactly if one of the calls panics when it is made alone.
-/
namespace Verif.Conc
open Verif Spec Props

variable (H : HashFns)

/-- `SignAuto` by `a` panics at input `k`: the previous script cannot be read, or it is the key's and signing panics. -/
def PanicsAt (a : InternalSigner) (tx : Transaction) (k : Nat) : Prop :=
  ∃ i, tx.Inputs[k]? = some i ∧ (GetPublicKeyHash i.PreviousTxScript = .panic ∨ (GetPublicKeyHash i.PreviousTxScript = .ok (Hash160 H a.pubKey) ∧ a.Sign H (UInt32.ofNat k) tx = .panic))

theorem sign_panic_same {a : InternalSigner} {idx : UInt32} {tx t : Transaction} (hs : Sized tx) (hT : SameButUnlocking tx t) : a.Sign H idx t = .panic ↔ a.Sign H idx tx = .panic := by
  obtain ⟨s1, s2, s3⟩ := sign_transfer H (a := a) (idx := idx) hs hT
  refine ⟨fun h => ?_, s3⟩
  rcases hx : a.Sign H idx tx with t0 | e | _
  · obtain ⟨s, rfl⟩ := sign_shape H hx
    rw [s1 s hx] at h; cases h
  · rw [s2 e hx] at h; cases h
  · rfl

theorem panicsAt_same {a : InternalSigner} {tx t : Transaction} (hs : Sized tx) (hT : SameButUnlocking tx t) (k : Nat) : PanicsAt H a t k ↔ PanicsAt H a tx k := by
  obtain ⟨h0, h1⟩ | ⟨i0, i1, hi0, hi1, -, hps⟩ := input_same hT k
  · unfold PanicsAt; rw [h0, h1]; simp
  · unfold PanicsAt
    rw [hi0, hi1]
    simp only [Option.some.injEq, exists_eq_left', sign_panic_same H hs hT, hps]

theorem hash160_eq_iff {a : InternalSigner} {o : Option Script} :
    hexEncode (match GetPublicKeyHash o with | .ok h => h | _ => []) = hexEncode (Hash160 H a.pubKey) ↔ GetPublicKeyHash o = .ok (Hash160 H a.pubKey) := by
  constructor
  · intro h
    have h1 := hexEncode_inj h
    rcases hg : GetPublicKeyHash o with x | e | _ <;> rw [hg] at h1 <;> dsimp only at h1
    · rw [h1]
    all_goals
      exfalso
      have := H.ripemd160_length (H.sha256 a.pubKey)
      have h2 : ([] : Bytes) = H.ripemd160 (H.sha256 a.pubKey) := h1
      rw [← h2] at this; simp at this
  · intro h; rw [h]

theorem autoStep_panic (a : InternalSigner) (tx : Transaction) (k : Nat) : a.signAutoStep H k tx = .panic ↔ PanicsAt H a tx k := by
  unfold InternalSigner.signAutoStep PanicsAt
  rcases hi : tx.Inputs[k]? with _ | i
  · simp
  · simp only [Option.some.injEq, exists_eq_left']
    have key := hash160_eq_iff H (a := a) (o := i.PreviousTxScript)
    rcases hg : GetPublicKeyHash i.PreviousTxScript with x | e | _ <;> rw [hg] at key <;> dsimp only at key ⊢
    · simp only [key]
      split_ifs with c
      · rcases hx : a.Sign H (UInt32.ofNat k) tx with t0 | e | _ <;> simp [c]
      · simp [c]
    · simp only [key]; simp
    · simp

theorem autoStep_not_err (a : InternalSigner) (tx : Transaction) (k : Nat) (e : String) : a.signAutoStep H k tx ≠ .err e := by
  unfold InternalSigner.signAutoStep
  rcases hi : tx.Inputs[k]? with _ | i
  · simp
  · dsimp only
    rcases hg : GetPublicKeyHash i.PreviousTxScript with x | e | _ <;> dsimp only
    · split_ifs
      · rcases hx : a.Sign H (UInt32.ofNat k) tx with t0 | e | _ <;> simp
      · simp
    · split_ifs
      · rcases hx : a.Sign H (UInt32.ofNat k) tx with t0 | e | _ <;> simp
      · simp
    · simp

theorem inOrder_panic {a : InternalSigner} {tx : Transaction} (hs : Sized tx) (l : List Nat) {t : Transaction} (hT : SameButUnlocking tx t) :
    signInOrder H a l t = .panic ↔ ∃ k ∈ l, PanicsAt H a tx k := by
  induction l generalizing t with
  | nil => simp [signInOrder]
  | cons k l ih =>
    simp only [signInOrder, Res.bind_eq_panic, List.mem_cons, exists_eq_or_imp, autoStep_panic, panicsAt_same H hs hT]
    constructor
    · rintro (h | ⟨t', h1, h2⟩)
      · exact .inl h
      · exact .inr ((ih (hT.trans (autoStep_same h1))).1 h2)
    · rintro (h | h)
      · exact .inl h
      · rcases hx : a.signAutoStep H k t with t' | e | _
        · exact .inr ⟨t', rfl, (ih (hT.trans (autoStep_same hx))).2 h⟩
        · exact absurd hx (autoStep_not_err H a t k e)
        · exact .inl ((panicsAt_same H hs hT k).1 ((autoStep_panic H a t k).1 hx))

/-- `SignAuto` panics exactly if it does so at some input. -/
theorem auto_panic {a : InternalSigner} {tx : Transaction} (hs : Sized tx) : a.SignAuto H tx = .panic ↔ ∃ k, PanicsAt H a tx k := by
  unfold InternalSigner.SignAuto
  rw [signAutoLoop_eq, inOrder_panic H hs _ (SameButUnlocking.refl tx)]
  constructor
  · rintro ⟨k, -, h⟩; exact ⟨k, h⟩
  · rintro ⟨k, h⟩
    refine ⟨k, ?_, h⟩
    obtain ⟨i, hi, -⟩ := h
    have := (List.getElem?_eq_some_iff.1 hi).1
    simp [List.mem_range'_1]; omega

theorem alone_panic {S : List InternalSigner} {tx : Transaction} {j : Nat × Job} {a : InternalSigner} (ha : S[j.1]? = some a) : alone H S j tx = .panic ↔
    match j.2 with
    | .one _ idx => a.Sign H idx tx = .panic
    | .auto _ => a.SignAuto H tx = .panic := by
  unfold alone
  rw [ha]
  rcases j with ⟨g, ⟨m, idx⟩ | m⟩ <;> dsimp only [Transaction.Sign, Transaction.SignAuto]
  · rcases a.Sign H idx tx with t | e | _ <;> simp
  · rcases a.SignAuto H tx with t | e | _ <;> simp

/-! ### A call that does not panic alone does not panic among others -/

theorem signStep_runs' {tx : Transaction} {S : List InternalSigner} (hs : Sized tx) {σ : Shared} (hT : SameButUnlocking tx σ.tx) (hR : Rel S σ.signers) {sg t : Nat} {a : InternalSigner}
    (ha : S[sg]? = some a) {idx : UInt32} (hp : a.Sign H idx tx ≠ .panic) {log : List Access} {p : InSign} (hok : InSignOk H tx S σ.signers log t sg a idx p) :
    ∃ r, signStep H σ sg idx p = .ok r := by
  obtain ⟨f, hf, -⟩ := hR.2 sg a ha
  have hi : index σ.signers sg = .ok { a with SigHashFlag := f } := by simp [index, hf]
  have hset : FlagSet S σ.signers sg → f = flagOrDefault a.SigHashFlag := by
    intro h; have := h a ha; rw [hf] at this; injection this with this; injection this
  have hsh : σ.tx.GetInputSignatureHash H idx (flagOrDefault a.SigHashFlag) = tx.GetInputSignatureHash H idx (flagOrDefault a.SigHashFlag) := sighash_same H hs hT idx _
  rw [sign_eq] at hp
  unfold signStep
  rw [hi, Res.ok_bind]
  rcases p with _ | _ | _ | sh | sig | s | e
  · exact ⟨_, rfl⟩
  · exact ⟨_, rfl⟩
  · dsimp only
    rw [hset hok.1, hsh]
    rcases hx : tx.GetInputSignatureHash H idx (flagOrDefault a.SigHashFlag) with sh | e | _
    · exact ⟨_, rfl⟩
    · exact ⟨_, rfl⟩
    · rw [hx] at hp; exact absurd rfl hp
  · dsimp only
    rw [ReverseBytes_eq]
    rcases hx : a.sign sh.reverse with sig | e | _
    · exact ⟨_, rfl⟩
    · exact ⟨_, rfl⟩
    · rw [hok.2.2.2, Res.ok_bind, hx] at hp; exact absurd rfl hp
  · exact ⟨_, rfl⟩
  · dsimp only
    have hk := sign_inRange H hok.2.2.2
    rw [← same_length hT] at hk
    rw [applyUnlocking_eq s hk]
    exact ⟨_, rfl⟩
  · exact ⟨_, rfl⟩

theorem pcStep_runs' {tx : Transaction} {S : List InternalSigner} (hs : Sized tx) {σ : Shared} (hT : SameButUnlocking tx σ.tx) (hR : Rel S σ.signers) {j : Nat × Job} {a : InternalSigner}
    (ha : S[j.1]? = some a) (hp : alone H S j tx ≠ .panic) {log : List Access} {t : Nat} {pc : PC} (hpc : PcOk H tx S σ.signers log t j a pc) : ∃ r, pcStep H σ j.1 pc = .ok r := by
  rw [Ne, alone_panic H ha] at hp
  obtain ⟨f, hf, -⟩ := hR.2 j.1 a ha
  have hi : index σ.signers j.1 = .ok { a with SigHashFlag := f } := by simp [index, hf]
  cases pc with
  | one m idx p =>
    obtain ⟨h1, h2⟩ := hpc
    rw [h1] at hp
    by_cases hret : ∃ e, p = .ret e
    · obtain ⟨_ | e, rfl⟩ := hret <;> exact ⟨_, rfl⟩
    · have h' : pcStep H σ j.1 (.one m idx p) = (signStep H σ j.1 idx p >>= fun r => pure (r.1, .one m idx r.2.1, r.2.2)) := by
        cases p <;> first | rfl | exact absurd ⟨_, rfl⟩ hret
      obtain ⟨r, h⟩ := signStep_runs' H hs hT hR ha hp h2
      rw [h', h]
      exact ⟨_, rfl⟩
  | autoTest m => simp only [pcStep, hi, Res.ok_bind]; exact ⟨_, rfl⟩
  | autoStore m => simp only [pcStep, hi, Res.ok_bind]; exact ⟨_, rfl⟩
  | range m => exact ⟨_, rfl⟩
  | scan m n i =>
    obtain ⟨h1, -, -, -, h5, h6, -⟩ := hpc
    rw [h1] at hp
    dsimp only at hp
    rw [auto_panic H hs] at hp
    by_cases hlt : i < n
    · have hk : i < σ.tx.Inputs.length := by rw [same_length hT]; omega
      have hin : index σ.tx.Inputs i = .ok σ.tx.Inputs[i] := by simp [index, List.getElem?_eq_getElem hk]
      have hnp : GetPublicKeyHash σ.tx.Inputs[i].PreviousTxScript ≠ .panic := fun e =>
        hp ⟨i, (panicsAt_same H hs hT i).1 ⟨_, List.getElem?_eq_getElem hk, .inl e⟩⟩
      simp only [pcStep, if_pos hlt, hi, Res.ok_bind, hin]
      rcases hg : GetPublicKeyHash σ.tx.Inputs[i].PreviousTxScript with x | e | _
      · dsimp only; split_ifs <;> exact ⟨_, rfl⟩
      · dsimp only; split_ifs <;> exact ⟨_, rfl⟩
      · exact absurd hg hnp
    · simp only [pcStep, if_neg hlt]; exact ⟨_, rfl⟩
  | inAuto m n i p =>
    obtain ⟨h1, -, -, -, h5, h6, -, h8, h9⟩ := hpc
    rw [h1] at hp
    dsimp only at hp
    rw [auto_panic H hs] at hp
    have hpi : a.Sign H (UInt32.ofNat i) tx ≠ .panic := by
      intro e
      rw [h1] at h8
      have hk : tx.Inputs[i]? = some tx.Inputs[i] := List.getElem?_eq_getElem (by omega)
      exact hp ⟨i, _, hk, .inr ⟨of_addresses H tx hk h8, e⟩⟩
    by_cases hret : ∃ e, p = .ret e
    · obtain ⟨e, rfl⟩ := hret; exact ⟨_, rfl⟩
    · have h' : pcStep H σ j.1 (.inAuto m n i p) = (signStep H σ j.1 (UInt32.ofNat i) p >>= fun r => pure (r.1, .inAuto m n i r.2.1, r.2.2)) := by
        cases p <;> first | rfl | exact absurd ⟨_, rfl⟩ hret
      obtain ⟨r, h⟩ := signStep_runs' H hs hT hR ha hpi h9
      rw [h', h]
      exact ⟨_, rfl⟩
  | assign => exact ⟨_, rfl⟩
  | done e => exact ⟨_, rfl⟩

theorem run_snoc (s : Sys) (sch : List Nat) (t : Nat) : run H s (sch ++ [t]) = step H (run H s sch) t := by simp [run]

/-- C87: if the program has panicked, one of the calls panics when made alone on the initial transaction: goroutines that sign together add no panic. -/
theorem C87_panic_own (tx : Transaction) (S : List InternalSigner) (jobs : List (Nat × Job)) (hs : Sized tx) (hj : HaveSigners S jobs) (sch : List Nat)
    (h : (run H (start tx S jobs) sch).crashed = true) : ∃ j ∈ jobs, alone H S j tx = .panic := by
  by_contra hc
  push Not at hc
  have : (run H (start tx S jobs) sch).crashed = false := by
    clear h
    induction sch using List.reverseRecOn with
    | nil => rfl
    | append_singleton sch t ih =>
      rw [run_snoc]
      have I := inv H tx S jobs hs hj sch
      generalize run H (start tx S jobs) sch = s at ih I
      unfold step
      rw [if_neg (by simp [ih])]
      obtain ⟨-, hn⟩ | ⟨j, a, pc, h1, h2, h3, h4⟩ := I.threads t
      · rw [hn]; exact ih
      · rw [h3]
        dsimp only
        obtain ⟨r, hr⟩ := pcStep_runs' H hs I.same I.rel h2 (hc j (List.mem_of_getElem? h1)) h4
        rw [hr]
  rw [this] at h; cases h

/-! ### A call that panics alone panics among others -/

/-- What a goroutine that has come so far has shown: the inputs behind it do not make it panic. -/
def Passed (a : InternalSigner) (tx : Transaction) : PC → Prop
  | .one .. | .autoTest _ | .autoStore _ | .range _ => True
  | .scan _ _ i => ∀ k < i, ¬PanicsAt H a tx k
  | .inAuto _ _ i _ => ∀ k < i, ¬PanicsAt H a tx k
  | .assign | .done _ => ∀ k, ¬PanicsAt H a tx k

/-- For `SignAuto` calls. -/
def PassedOk (a : InternalSigner) (tx : Transaction) (j : Job) (pc : PC) : Prop := ∀ m, j = .auto m → Passed H a tx pc

theorem passed_step {tx : Transaction} {S : List InternalSigner} (hs : Sized tx) {σ : Shared} (hT : SameButUnlocking tx σ.tx) (hR : Rel S σ.signers) {j : Nat × Job} {a : InternalSigner}
    (ha : S[j.1]? = some a) {log : List Access} {t : Nat} {pc : PC} (hpc : PcOk H tx S σ.signers log t j a pc) {r : Shared × PC × List (Bool × Loc)} (h : pcStep H σ j.1 pc = .ok r)
    (hp : PassedOk H a tx j.2 pc) : PassedOk H a tx j.2 r.2.1 := by
  intro m0 hm
  have hp := hp m0 hm
  obtain ⟨f, hf, -⟩ := hR.2 j.1 a ha
  have hi : index σ.signers j.1 = .ok { a with SigHashFlag := f } := by simp [index, hf]
  cases pc with
  | one m idx p => rw [hpc.1] at hm; cases hm
  | autoTest m =>
    simp only [pcStep, hi, Res.ok_bind] at h
    cases h; dsimp only; split_ifs <;> trivial
  | autoStore m => simp only [pcStep, hi, Res.ok_bind] at h; cases h; trivial
  | range m => cases h; intro k hk; omega
  | scan m n i =>
    obtain ⟨h1, -, -, -, h5, h6, -⟩ := hpc
    by_cases hlt : i < n
    · simp only [pcStep, if_pos hlt, hi, Res.ok_bind] at h
      obtain ⟨inp, hin, h⟩ := Res.bind_eq_ok.1 h
      have hi' : σ.tx.Inputs[i]? = some inp := by
        unfold index at hin; rcases hx : σ.tx.Inputs[i]? with _ | y <;> rw [hx] at hin <;> cases hin; rfl
      have key := hash160_eq_iff H (a := a) (o := inp.PreviousTxScript)
      have next : GetPublicKeyHash inp.PreviousTxScript ≠ .panic → GetPublicKeyHash inp.PreviousTxScript ≠ .ok (Hash160 H a.pubKey) → ∀ k < i + 1, ¬PanicsAt H a tx k := by
        intro n1 n2 k hk hpk
        rcases Nat.lt_succ_iff_lt_or_eq.1 hk with c | c
        · exact hp k c hpk
        · subst c
          obtain ⟨i1, hi1, hx | ⟨hx, -⟩⟩ := (panicsAt_same H hs hT k).2 hpk <;> rw [hi'] at hi1 <;> cases hi1
          · exact n1 hx
          · exact n2 hx
      rcases hg : GetPublicKeyHash inp.PreviousTxScript with x | e | _ <;> rw [hg] at h key next <;> dsimp only at h key
      · split_ifs at h with c
        · cases h; exact hp
        · cases h; exact next (by simp) (fun e => c (key.2 e))
      · split_ifs at h with c
        · cases h; exact hp
        · cases h; exact next (by simp) (by simp)
      · cases h
    · simp only [pcStep, if_neg hlt] at h
      cases h
      have all : ∀ k, ¬PanicsAt H a tx k := by
        intro k hpk
        refine hp k ?_ hpk
        obtain ⟨i1, hi1, -⟩ := hpk
        have := (List.getElem?_eq_some_iff.1 hi1).1
        omega
      dsimp only
      split_ifs <;> exact all
  | inAuto m n i p =>
    obtain ⟨h1, -, -, -, h5, h6, -, h8, h9⟩ := hpc
    by_cases hret : ∃ e, p = .ret e
    · obtain ⟨e, rfl⟩ := hret
      cases h
      have hnp : a.Sign H (UInt32.ofNat i) tx ≠ .panic := by
        rcases e with _ | e
        · obtain ⟨-, -, -, -, s, hs⟩ := h9; rw [hs]; simp
        · rw [h9.2.2.2]; simp
      intro k hk hpk
      rcases Nat.lt_succ_iff_lt_or_eq.1 hk with c | c
      · exact hp k c hpk
      · subst c
        rw [h1] at h8
        obtain ⟨i1, hi1, hx | ⟨-, hx⟩⟩ := hpk
        · rw [of_addresses H tx hi1 h8] at hx; cases hx
        · exact hnp hx
    · have h' : pcStep H σ j.1 (.inAuto m n i p) = (signStep H σ j.1 (UInt32.ofNat i) p >>= fun r => pure (r.1, .inAuto m n i r.2.1, r.2.2)) := by
        cases p <;> first | rfl | exact absurd ⟨_, rfl⟩ hret
      rw [h'] at h
      obtain ⟨q, hq, h⟩ := Res.bind_eq_ok.1 h
      cases h; exact hp
  | assign => cases h; exact hp
  | done e => cases h; exact hp

theorem passed_run {tx : Transaction} {S : List InternalSigner} {jobs : List (Nat × Job)} (hs : Sized tx) (hj : HaveSigners S jobs) (sch : List Nat) (t : Nat) (j : Nat × Job) (a : InternalSigner) (pc : PC)
    (h1 : jobs[t]? = some j) (h2 : S[j.1]? = some a) (h3 : (run H (start tx S jobs) sch).threads[t]? = some (j.1, pc)) : PassedOk H a tx j.2 pc := by
  induction sch using List.reverseRecOn generalizing pc with
  | nil =>
    simp only [run, List.foldl_nil, start, List.getElem?_map, h1, Option.map_some, Option.some.injEq, Prod.mk.injEq, true_and] at h3
    subst h3
    intro m hm; rw [hm]; trivial
  | append_singleton sch u ih =>
    rw [run_snoc] at h3
    have I := inv H tx S jobs hs hj sch
    generalize run H (start tx S jobs) sch = s at ih I h3
    unfold step at h3
    split_ifs at h3
    · exact ih pc h3
    obtain ⟨-, hn⟩ | ⟨j', a', pc', k1, k2, k3, k4⟩ := I.threads u
    · rw [hn] at h3; exact ih pc h3
    rw [k3] at h3
    dsimp only at h3
    rcases hp : pcStep H s.shared j'.1 pc' with r | e | _ <;> rw [hp] at h3
    · dsimp only at h3
      by_cases e : u = t
      · subst e
        rw [h1] at k1; cases k1
        rw [h2] at k2; cases k2
        rw [List.getElem?_set_self (List.getElem?_eq_some_iff.1 k3).1] at h3
        cases h3
        exact passed_step H hs I.same I.rel h2 k4 hp (ih pc' k3)
      · rw [List.getElem?_set_ne e] at h3; exact ih pc h3
    · exact ih pc h3
    · exact ih pc h3

/-- C87: a goroutine that has returned had a call that does not panic alone. -/
theorem C87_returned_not_panic (tx : Transaction) (S : List InternalSigner) (jobs : List (Nat × Job)) (hs : Sized tx) (hj : HaveSigners S jobs) (sch : List Nat) (t : Nat) (j : Nat × Job)
    (h1 : jobs[t]? = some j) (e : Option String) (h : (run H (start tx S jobs) sch).threads[t]? = some (j.1, .done e)) : alone H S j tx ≠ .panic := by
  obtain ⟨h2, -⟩ | ⟨j', a, pc, k1, k2, k3, k4⟩ := (inv H tx S jobs hs hj sch).threads t
  · rw [h1] at h2; cases h2
  rw [h1] at k1; cases k1
  have hpc : pc = .done e := by rw [h] at k3; cases k3; rfl
  subst hpc
  rw [Ne, alone_panic H k2]
  have hp := passed_run H hs hj sch t j a _ h1 k2 k3
  obtain ⟨-, -, -, ⟨b, hb, hr⟩, -⟩ := k4
  rw [k2] at hb; cases hb
  rcases j with ⟨g, ⟨m, idx⟩ | m⟩ <;> dsimp only at hr ⊢
  · rcases e with _ | e
    · obtain ⟨_, hr⟩ := hr; rw [hr]; simp
    · dsimp only at hr; rw [hr]; simp
  · rw [auto_panic H hs]
    rintro ⟨k, hk⟩
    exact hp m rfl k hk

/-- C87: a goroutine that makes nine steps per input and eight more has returned, or the program has panicked. -/
theorem C87_returns_or_panics (tx : Transaction) (S : List InternalSigner) (jobs : List (Nat × Job)) (hs : Sized tx) (hj : HaveSigners S jobs) (sch : List Nat) (t : Nat) (j : Nat × Job)
    (h1 : jobs[t]? = some j) (hfair : 9 * tx.Inputs.length + 8 ≤ sch.count t) :
    (run H (start tx S jobs) sch).crashed = true ∨ ∃ e, (run H (start tx S jobs) sch).threads[t]? = some (j.1, .done e) := by
  rcases hc : (run H (start tx S jobs) sch).crashed with _ | _
  swap; · exact .inl rfl
  refine .inr ?_
  have key : ∃ pc, (run H (start tx S jobs) sch).threads[t]? = some (j.1, pc) ∧ remaining tx.Inputs.length pc ≤ 9 * tx.Inputs.length + 8 - sch.count t := by
    clear hfair
    induction sch using List.reverseRecOn with
    | nil =>
      refine ⟨j.2.start, by simp [run, start, List.getElem?_map, h1], ?_⟩
      rcases j with ⟨g, ⟨m, idx⟩ | m⟩ <;> simp [Job.start, remaining, left]
    | append_singleton sch u ih =>
      rw [run_snoc] at hc ⊢
      have I := inv H tx S jobs hs hj sch
      generalize run H (start tx S jobs) sch = s at ih I hc ⊢
      have hc0 : s.crashed = false := by
        by_contra c
        simp only [Bool.not_eq_false] at c
        simp [step, c] at hc
      obtain ⟨pc, k1, k2⟩ := ih hc0
      unfold step at hc ⊢
      rw [if_neg (by simp [hc0])] at hc ⊢
      rcases hu : s.threads[u]? with _ | ⟨sg, q⟩
      · refine ⟨pc, k1, ?_⟩
        have : u ≠ t := by rintro rfl; rw [k1] at hu; cases hu
        rw [List.count_append, List.count_singleton]; simp [this]; exact k2
      rw [hu] at hc
      dsimp only at hc ⊢
      rcases hp : pcStep H s.shared sg q with r | e | _ <;> rw [hp] at hc
      · dsimp only
        have hrem := remaining_step H hp
        rw [same_length I.same] at hrem
        by_cases e : u = t
        · subst e
          rw [k1] at hu; cases hu
          refine ⟨_, List.getElem?_set_self (List.getElem?_eq_some_iff.1 k1).1, ?_⟩
          rw [List.count_append, List.count_singleton_self]
          exact Nat.le_trans hrem (by omega)
        · refine ⟨pc, by rw [List.getElem?_set_ne e]; exact k1, ?_⟩
          rw [List.count_append, List.count_singleton]; simp [e]; exact k2
      · cases hc
      · cases hc
  obtain ⟨pc, k1, k2⟩ := key
  obtain ⟨e, rfl⟩ := remaining_zero (N := tx.Inputs.length) (pc := pc) (by omega)
  exact ⟨e, k1⟩

/-- C87: a call that panics when made alone takes the program down in every schedule that gives its goroutine enough steps, whatever the others do. -/
theorem C87_panics (tx : Transaction) (S : List InternalSigner) (jobs : List (Nat × Job)) (hs : Sized tx) (hj : HaveSigners S jobs) (sch : List Nat) (t : Nat) (j : Nat × Job)
    (h1 : jobs[t]? = some j) (hfair : 9 * tx.Inputs.length + 8 ≤ sch.count t) (h : alone H S j tx = .panic) : (run H (start tx S jobs) sch).crashed = true := by
  rcases C87_returns_or_panics H tx S jobs hs hj sch t j h1 hfair with c | ⟨e, he⟩
  · exact c
  · exact absurd h (C87_returned_not_panic H tx S jobs hs hj sch t j h1 e he)

/-- C87: if every goroutine gets enough steps, the program ends in one of two ways: it panics, exactly if some call panics when made alone, or every call returns. -/
theorem C87_panic_iff (tx : Transaction) (S : List InternalSigner) (jobs : List (Nat × Job)) (hs : Sized tx) (hj : HaveSigners S jobs) (sch : List Nat)
    (hfair : ∀ t, t < jobs.length → 9 * tx.Inputs.length + 8 ≤ sch.count t) :
    ((run H (start tx S jobs) sch).crashed = true ↔ ∃ j ∈ jobs, alone H S j tx = .panic) ∧
    ((run H (start tx S jobs) sch).finished ↔ ∀ j ∈ jobs, alone H S j tx ≠ .panic) := by
  have h1 : (run H (start tx S jobs) sch).crashed = true ↔ ∃ j ∈ jobs, alone H S j tx = .panic := by
    refine ⟨C87_panic_own H tx S jobs hs hj sch, ?_⟩
    rintro ⟨j, hjm, h⟩
    obtain ⟨t, ht⟩ := List.mem_iff_getElem?.1 hjm
    exact C87_panics H tx S jobs hs hj sch t j ht (hfair t (List.getElem?_eq_some_iff.1 ht).1) h
  refine ⟨h1, fun hf j hjm h => ?_, fun hn => ?_⟩
  · have := h1.2 ⟨j, hjm, h⟩
    rw [hf.1] at this; cases this
  · have hc : (run H (start tx S jobs) sch).crashed = false := by
      by_contra c
      simp only [Bool.not_eq_false] at c
      obtain ⟨j, hjm, h⟩ := h1.1 c
      exact hn j hjm h
    refine ⟨hc, fun x hx => ?_⟩
    obtain ⟨t, ht⟩ := List.mem_iff_getElem?.1 hx
    obtain ⟨-, hn⟩ | ⟨j, a, pc, k1, -, k3, -⟩ := (inv H tx S jobs hs hj sch).threads t
    · rw [hn] at ht; cases ht
    rcases C87_returns_or_panics H tx S jobs hs hj sch t j k1 (hfair t (List.getElem?_eq_some_iff.1 k1).1) with c | ⟨e, he⟩
    · rw [hc] at c; cases c
    · rw [he] at ht; cases ht; exact ⟨e, rfl⟩

/-! ### Non-vacuity -/

/-- A goroutine that signs an input which does not exist takes down another that signs correctly. -/
def exBadJobs : List (Nat × Job) := [(1, .one false 0), (2, .one false 9)]

example : (∃ j ∈ exBadJobs, alone toyH exSigners j exPair = .panic) ∧ (∃ j ∈ exBadJobs, alone toyH exSigners j exPair ≠ .panic) ∧
    (run toyH (start exPair exSigners exBadJobs) (List.replicate 26 [1, 0]).flatten).crashed = true ∧
    (run toyH (start exPair exSigners exJobs) (List.replicate 26 [1, 0]).flatten).finished := by
  have hbad : alone toyH exSigners (2, .one false 9) exPair = .panic := by decide +kernel
  have hj : HaveSigners exSigners exBadJobs := by unfold HaveSigners; decide
  refine ⟨⟨_, by simp [exBadJobs], hbad⟩, ⟨(1, .one false 0), by simp [exBadJobs], by decide +kernel⟩, ?_, ?_⟩
  · exact C87_panics toyH exPair exSigners exBadJobs exPair_sized hj _ 1 (2, .one false 9) rfl (by decide +kernel) hbad
  · have hj' : HaveSigners exSigners exJobs := by unfold HaveSigners; decide
    exact (C87_panic_iff toyH exPair exSigners exJobs exPair_sized hj' _ (by decide +kernel)).2.2 (by decide +kernel)

/-- `SignAuto` of a transaction with an unreadable previous script. -/
def exUnreadable : Transaction := { exPair with Inputs := exPair.Inputs.mapIdx fun k i => if k = 1 then { i with PreviousTxScript := some [0x76] } else i }

example : alone toyH exSigners (1, .auto false) exUnreadable = .panic ∧ PanicsAt toyH { toySigner with SigHashFlag := 0x41 } exUnreadable 1 ∧
    (run toyH (start exUnreadable exSigners [(1, .auto false)]) (List.replicate 26 0)).crashed = true := by
  refine ⟨by decide +kernel, ⟨_, rfl, .inl (by decide +kernel)⟩, by decide +kernel⟩

end Verif.Conc
