import Verif.Lemmas.ConcMixLog
/-!
# C122: calls on a transaction while others add to it; C123: signing through the transaction while others add to it
-/
namespace Verif.Props
open Verif Verif.Spec Verif.Mix
open Verif.Build (Pool Loc Access)
open Verif.Obj (RefSlice)

/-! ## The programs are the methods -/

section
variable {α β : Type}
@[simp] theorem alone_ret (v : Nat → List α) (r : β) : alone v (.ret r : Prog α β) = .ok r := rfl
theorem alone_count (v : Nat → List α) (f : Nat) (k : Nat → Prog α β) : alone v (.count f k) = alone v (k (v f).length) := rfl
theorem alone_range (v : Nat → List α) (f : Nat) (k : List α → Prog α β) : alone v (.range f k) = alone v (k (v f)) := rfl
theorem alone_elem {v : Nat → List α} {f i : Nat} {x : α} (h : (v f)[i]? = some x) (k : α → Prog α β) : alone v (.elem f i k) = alone v (k x) := by
  conv_lhs => unfold alone
  rw [h]
end

theorem ins_map (l : List Input) : ins (l.map .inl) = l := by
  induction l with
  | nil => rfl
  | cons x l ih => simpa [ins] using ih

theorem outs_map (l : List Output) : outs (l.map .inr) = l := by
  induction l with
  | nil => rfl
  | cons x l ih => simpa [outs] using ih

/-- C122: on a transaction that nobody changes, the programs return what the methods return. -/
theorem C122_toBytes_alone (tx : Transaction) (idx : Int) (spk : Option Bytes) :
    alone (txVal tx) (toBytesHelper tx.Version tx.Locktime idx spk) = .ok (.bytes (tx.toBytesHelper idx spk)) := by
  simp [alone, Mix.toBytesHelper, txVal, ins_map, outs_map, helperRead, Transaction.toBytesHelper]

theorem C122_counts_alone (tx : Transaction) : alone (txVal tx) inputCount = .ok (.number tx.Inputs.length) ∧ alone (txVal tx) outputCount = .ok (.number tx.Outputs.length) ∧
    alone (txVal tx) totalSatoshis = .ok (.number tx.GetTotalOutputSatoshis.toNat) := by
  refine ⟨by simp [alone, inputCount, txVal], by simp [alone, outputCount, txVal], ?_⟩
  simp [alone, totalSatoshis, txVal, outs_map, Transaction.GetTotalOutputSatoshis]

theorem C122_coinbase_alone (tx : Transaction) : alone (txVal tx) isCoinbase = .ok (.bool tx.IsCoinbase) := by
  have h0 : txVal tx 0 = tx.Inputs.map .inl := rfl
  generalize txVal tx = v at h0
  unfold isCoinbase Transaction.IsCoinbase
  rw [alone_count, h0, List.length_map]
  match hi : tx.Inputs with
  | [] => simp
  | a :: b :: l => simp
  | [i] =>
    rw [hi] at h0
    have h00 : (v 0)[0]? = some (.inl i) := by rw [h0]; rfl
    rw [if_neg (by simp), alone_elem h00]
    dsimp only
    split_ifs with c1
    · rfl
    · rw [alone_elem h00]
      dsimp only
      split_ifs with c2
      · simp [c2, alone]
      · rw [alone_elem h00]
        simp [c2, alone]

/-- What a method's result is as a result of a program. -/
def asGot : Res Bytes → Res Got
  | .ok d => .ok (.bytes d)
  | .err e => .ok (.error e)
  | .panic => .panic

theorem outputsHash_alone (H : HashFns) (tx : Transaction) (n : Int) (k : Bytes → Prog Elem Got) :
    alone (txVal tx) (outputsHash H n k) = match tx.getOutputsHash H n with
      | .ok h => alone (txVal tx) (k h)
      | .err _ => .panic
      | .panic => .panic := by
  unfold outputsHash Transaction.getOutputsHash
  split_ifs with c1 c2
  · simp [alone, txVal, outs_map]
  · rfl
  · simp only [alone, txVal, List.getElem?_map]
    rcases h : tx.Outputs[n.toNat]? with _ | o
    · simp [index, h, bind, Res.bind]
    · simp [index, h, bind, Res.bind, pure]

/-- The hash of the outputs in `GetInputSignatureHash`. -/
def outputsPart (H : HashFns) (tx : Transaction) (i : UInt32) (flag : UInt8) : Res Bytes :=
  if flag &&& 31 ≠ sighash.Single ∧ flag &&& 31 ≠ sighash.None then tx.getOutputsHash H (-1)
  else if flag &&& 31 = sighash.Single ∧ i < UInt32.ofNat tx.Outputs.length then tx.getOutputsHash H (Transaction.int32OfUint32 i)
  else .ok (List.replicate 32 0)

theorem digest_eq (H : HashFns) (tx : Transaction) (i : UInt32) (flag : UInt8) {inp : Input} {ps : Bytes} (h : tx.Inputs[i.toNat]? = some inp) (c1 : inp.PreviousTxID ≠ []) (c2 : inp.PreviousTxScript = some ps) :
    tx.GetInputSignatureHash H i flag = (outputsPart H tx i flag).bind fun ho => .ok (digestRead H tx.Version tx.Locktime flag inp ps
      (if flag &&& sighash.AnyOneCanPay = 0 then tx.getPrevoutHash H else List.replicate 32 0)
      (if flag &&& sighash.AnyOneCanPay = 0 ∧ flag &&& 31 ≠ sighash.Single ∧ flag &&& 31 ≠ sighash.None then tx.getSequenceHash H else List.replicate 32 0) ho) := by
  unfold Transaction.GetInputSignatureHash outputsPart
  simp only [index, h]
  rw [Res.ok_bind, if_neg c1, c2]
  dsimp only
  split_ifs <;> rfl

/-- Going on with `k` after a method's result. -/
def thenAlone (tx : Transaction) (k : Got → Prog Elem Got) : Res Bytes → Res Got
  | .ok d => alone (txVal tx) (k (.bytes d))
  | .err e => alone (txVal tx) (k (.error e))
  | .panic => .panic

theorem sigHash_alone (H : HashFns) (tx : Transaction) (i : UInt32) (flag : UInt8) (k : Got → Prog Elem Got) :
    alone (txVal tx) (sigHash H tx.Version tx.Locktime i flag k) = thenAlone tx k (tx.GetInputSignatureHash H i flag) := by
  unfold sigHash
  conv_lhs => unfold alone
  simp only [txVal, List.getElem?_map]
  rcases h : tx.Inputs[i.toNat]? with _ | inp
  · simp [Transaction.GetInputSignatureHash, index, h, bind, Res.bind, thenAlone]
  simp only [Option.map_some]
  by_cases c1 : inp.PreviousTxID = []
  · simp [Transaction.GetInputSignatureHash, index, h, bind, Res.bind, thenAlone, c1]
  rw [if_neg c1]
  rcases c2 : inp.PreviousTxScript with _ | ps
  · simp [Transaction.GetInputSignatureHash, index, h, bind, Res.bind, thenAlone, c1, c2]
  rw [digest_eq H tx i flag h c1 c2]
  dsimp only
  have h0 : ins (txVal tx 0) = tx.Inputs := ins_map _
  have h1 : (txVal tx 1).length = tx.Outputs.length := List.length_map _
  have ho : ∀ k : Bytes → Prog Elem Got, alone (txVal tx) (
      if flag &&& 31 ≠ sighash.Single ∧ flag &&& 31 ≠ sighash.None then outputsHash H (-1) k
      else if flag &&& 31 = sighash.Single then
        .count 1 fun m => if i < UInt32.ofNat m then outputsHash H (Transaction.int32OfUint32 i) k else k (List.replicate 32 0)
      else k (List.replicate 32 0)) = match outputsPart H tx i flag with
      | .ok h => alone (txVal tx) (k h)
      | .err _ => .panic
      | .panic => .panic := by
    intro k
    unfold outputsPart
    by_cases c3 : flag &&& 31 ≠ sighash.Single ∧ flag &&& 31 ≠ sighash.None
    · rw [if_pos c3, if_pos c3, outputsHash_alone]
    · rw [if_neg c3, if_neg c3]
      by_cases c4 : flag &&& 31 = sighash.Single
      · rw [if_pos c4, alone_count, h1]
        by_cases c5 : i < UInt32.ofNat tx.Outputs.length
        · rw [if_pos c5, if_pos ⟨c4, c5⟩, outputsHash_alone]
        · rw [if_neg c5, if_neg (fun h => c5 h.2)]
      · rw [if_neg c4, if_neg (fun h => c4 h.1)]
  have hne : ∀ e, outputsPart H tx i flag ≠ .err e := by
    intro e
    have hg : ∀ n, tx.getOutputsHash H n ≠ .err e := by
      intro n
      unfold Transaction.getOutputsHash index
      split_ifs
      · simp
      · simp
      · rcases tx.Outputs[n.toNat]? with _ | o <;> simp [bind, Res.bind, pure]
    unfold outputsPart
    split_ifs
    · exact hg _
    · exact hg _
    · simp
  have fin : ∀ hp hs : Bytes, (match outputsPart H tx i flag with
      | .ok h => alone (txVal tx) (k (.bytes (digestRead H tx.Version tx.Locktime flag inp ps hp hs h)))
      | .err _ => .panic
      | .panic => .panic) = thenAlone tx k ((outputsPart H tx i flag).bind fun ho => .ok (digestRead H tx.Version tx.Locktime flag inp ps hp hs ho)) := by
    intro hp hs
    generalize outputsPart H tx i flag = o at hne
    cases o with
    | ok h => rfl
    | err e => exact absurd rfl (hne e)
    | panic => rfl
  by_cases c6 : flag &&& sighash.AnyOneCanPay = 0
  · rw [if_pos c6, alone_range, h0, if_pos c6]
    by_cases c7 : flag &&& sighash.AnyOneCanPay = 0 ∧ flag &&& 31 ≠ sighash.Single ∧ flag &&& 31 ≠ sighash.None
    · rw [if_pos c7, alone_range, h0, ho, if_pos c7]
      exact fin _ _
    · rw [if_neg c7, ho, if_neg c7]
      exact fin _ _
  · have c7 : ¬ (flag &&& sighash.AnyOneCanPay = 0 ∧ flag &&& 31 ≠ sighash.Single ∧ flag &&& 31 ≠ sighash.None) := fun h => c6 h.1
    rw [if_neg c6, if_neg c7, ho, if_neg c6, if_neg c7]
    exact fin _ _

theorem C122_digest_alone (H : HashFns) (tx : Transaction) (i : UInt32) (flag : UInt8) :
    alone (txVal tx) (sigHash H tx.Version tx.Locktime i flag .ret) = asGot (tx.GetInputSignatureHash H i flag) := by
  rw [sigHash_alone]
  cases tx.GetInputSignatureHash H i flag <;> rfl

theorem digest_input {H : HashFns} {tx : Transaction} {i : UInt32} {flag : UInt8} {d : Bytes} (h : tx.GetInputSignatureHash H i flag = .ok d) : ∃ inp, tx.Inputs[i.toNat]? = some inp := by
  rcases e : tx.Inputs[i.toNat]? with _ | inp
  · simp [Transaction.GetInputSignatureHash, index, e, bind, Res.bind] at h
  · exact ⟨inp, rfl⟩

/-- C122: the signing calls compute the digest of the transaction. -/
theorem C122_sign_alone (H : HashFns) (tx : Transaction) (method : Bool) (i : UInt32) (flag : UInt8) :
    alone (txVal tx) (Mix.sign H tx.Version tx.Locktime method i flag) = asGot (tx.GetInputSignatureHash H i flag) := by
  unfold Mix.sign
  rw [sigHash_alone]
  rcases h : tx.GetInputSignatureHash H i flag with d | e | _
  · obtain ⟨inp, hi⟩ := digest_input h
    have h0 : (txVal tx 0)[i.toNat]? = some (.inl inp) := by simp [txVal, hi]
    unfold thenAlone
    dsimp only
    rw [alone_elem h0, alone_elem h0]
    cases method <;> rfl
  · rfl
  · rfl

section
variable {α β : Type} [Inhabited α]

/-! ## Every schedule -/

theorem step_crashed (g : Nat → Nat) {s : Mix.Sys α β} (h : s.crashed = true) (t : Nat) : Mix.step g s t = s := by unfold Mix.step; rw [if_pos h]

theorem run_crashed (g : Nat → Nat) {s : Mix.Sys α β} (h : s.crashed = true) (sch : List Nat) : Mix.run g s sch = s := by
  induction sch with
  | nil => rfl
  | cons t sch ih => show Mix.run g (Mix.step g s t) sch = s; rw [step_crashed g h, ih]

/-- When the program has crashed, it was because one of the calls panicked. -/
theorem crash_from (g : Nat → Nat) (s0 : Mix.Sys α β) (h0 : s0.crashed = false) (sch : List Nat) (h : (Mix.run g s0 sch).crashed = true) :
    ∃ n t i, sch[n]? = some t ∧ (Mix.run g s0 (sch.take n)).crashed = false ∧ (Mix.run g s0 (sch.take n)).app.threads.length + i = t ∧ EndsWith (Mix.run g s0 (sch.take n)) i .panic := by
  induction sch using List.reverseRecOn with
  | nil => rw [show (Mix.run g s0 []).crashed = s0.crashed from rfl, h0] at h; cases h
  | append_singleton sch t ih =>
    by_cases c : (Mix.run g s0 sch).crashed = true
    · obtain ⟨n, u, i, hn, k1, k2, hi⟩ := ih c
      have hlt := (List.getElem?_eq_some_iff.1 hn).1
      refine ⟨n, u, i, by rw [List.getElem?_append_left hlt]; exact hn, ?_⟩
      rw [List.take_append_of_le_length (Nat.le_of_lt hlt)]
      exact ⟨k1, k2, hi⟩
    · rw [run_snoc] at h
      have key : ∀ s : Mix.Sys α β, s.crashed ≠ true → (Mix.step g s t).crashed = true → ∃ i, s.app.threads.length + i = t ∧ EndsWith s i .panic := by
        intro s hc hs
        unfold Mix.step at hs
        rw [if_neg hc] at hs
        split_ifs at hs with c1
        · exact absurd hs hc
        · rcases hcall : s.calls[t - s.app.threads.length]? with _ | pc
          · rw [hcall] at hs; exact absurd hs hc
          · rw [hcall] at hs
            dsimp only at hs
            rcases hr : Mix.rstep s.app.pool pc with _ | r
            · exact ⟨_, by omega, pc, hcall, hr⟩
            · rw [hr] at hs; exact absurd hs hc
      obtain ⟨i, hi⟩ := key _ c h
      refine ⟨sch.length, t, i, by simp, ?_⟩
      rw [List.take_left]
      exact ⟨by simpa using c, hi⟩

/-- C122, any schedule (with any number of goroutines adding and calls looking or assigning): at every moment each list holds what it held at the start, in place, followed by elements added by some of the goroutines, each goroutine's
at most once. -/
theorem C122_always (g : Nat → Nat) (pool : Nat → Pool α) (ok : ∀ f, SliceOK (pool f)) (jobs : List (Nat × α)) (calls : List (Prog α β)) (sch : List Nat) (f : Nat) :
    ∃ ts, Outcome jobs f (pool f).val ts ((Mix.run g (Mix.start pool jobs calls) sch).val f) := by
  obtain ⟨slots, I⟩ := minv_run g sch (minv_start pool ok jobs calls)
  exact good_poss (I.app f).hdr

/-- C122, any schedule: what a call returns is what it returns when every one of its looks finds such a list. -/
theorem C122_any (g : Nat → Nat) (pool : Nat → Pool α) (ok : ∀ f, SliceOK (pool f)) (jobs : List (Nat × α)) (calls : List (Prog α β)) (sch : List Nat) (i : Nat) (p : Prog α β) (hp : calls[i]? = some p) (r : β)
    (h : HasReturned (Mix.run g (Mix.start pool jobs calls) sch) i r) : Finds (fun _ f l => ∃ ts, Outcome jobs f (pool f).val ts l) 0 p (.ok r) := by
  obtain ⟨slots, I⟩ := minv_run g sch (minv_start pool ok jobs calls)
  exact endsWith_finds I hp (r := .ok r) h

theorem threads_len (g : Nat → Nat) (pool : Nat → Pool α) (ok : ∀ f, SliceOK (pool f)) (jobs : List (Nat × α)) (calls : List (Prog α β)) (sch : List Nat) :
    (Mix.run g (Mix.start pool jobs calls) sch).app.threads.length = jobs.length := by
  obtain ⟨slots, I⟩ := minv_run g sch (minv_start pool ok jobs calls)
  simpa using congrArg List.length (I.app 0).same

/-- C122, any schedule: the program panics only if one of the calls panics when its looks find such lists. -/
theorem C122_crash (g : Nat → Nat) (pool : Nat → Pool α) (ok : ∀ f, SliceOK (pool f)) (jobs : List (Nat × α)) (calls : List (Prog α β)) (sch : List Nat)
    (h : (Mix.run g (Mix.start pool jobs calls) sch).crashed = true) : ∃ p ∈ calls, Finds (fun _ f l => ∃ ts, Outcome jobs f (pool f).val ts l) 0 p .panic := by
  obtain ⟨n, t, i, -, -, -, hi⟩ := crash_from g _ rfl sch h
  obtain ⟨slots, I⟩ := minv_run g (sch.take n) (minv_start pool ok jobs calls)
  obtain ⟨pc, h1, h2⟩ := hi
  have hlt : i < calls.length := by rw [← I.len]; exact (List.getElem?_eq_some_iff.1 h1).1
  exact ⟨calls[i], List.getElem_mem hlt, endsWith_finds I (List.getElem?_eq_getElem hlt) (r := .panic) ⟨pc, h1, h2⟩⟩

/-! ## Additions that do not overlap -/

/-- C122: when no two goroutines replace the same list at the same time, a call returns what it returns when each of its looks finds what the list holds at that moment; the moments are among the call's own steps and follow one another. -/
theorem C122_orderly (g : Nat → Nat) (pool : Nat → Pool α) (ok : ∀ f, SliceOK (pool f)) (jobs : List (Nat × α)) (calls : List (Prog α β)) (sch : List Nat) (ho : NoOverlap g (Mix.start pool jobs calls) sch)
    (i : Nat) (p : Prog α β) (hp : calls[i]? = some p) (r : β) (h : HasReturned (Mix.run g (Mix.start pool jobs calls) sch) i r) :
    Finds (fun j f l => sch[j]? = some (jobs.length + i) ∧ l = (Mix.run g (Mix.start pool jobs calls) (sch.take j)).val f) 0 p (.ok r) := by
  have A := allInv_run g pool ok jobs calls sch ho sch.length (Nat.le_refl _)
  rw [List.take_length] at A
  exact A.calls i _ p h hp _ .ret

/-- C122: and it panics only if it does so on what it finds at these moments. -/
theorem C122_orderly_crash (g : Nat → Nat) (pool : Nat → Pool α) (ok : ∀ f, SliceOK (pool f)) (jobs : List (Nat × α)) (calls : List (Prog α β)) (sch : List Nat) (ho : NoOverlap g (Mix.start pool jobs calls) sch)
    (h : (Mix.run g (Mix.start pool jobs calls) sch).crashed = true) :
    ∃ i p, calls[i]? = some p ∧ Finds (fun j f l => sch[j]? = some (jobs.length + i) ∧ l = (Mix.run g (Mix.start pool jobs calls) (sch.take j)).val f) 0 p .panic := by
  obtain ⟨n, t, i, hn, -, ht, pc, h1, h2⟩ := crash_from g _ rfl sch h
  have hlt := (List.getElem?_eq_some_iff.1 hn).1
  have A := allInv_run g pool ok jobs calls sch ho n (Nat.le_of_lt hlt)
  rw [threads_len g pool ok jobs calls] at ht
  have hic : i < calls.length := by rw [← A.len]; exact (List.getElem?_eq_some_iff.1 h1).1
  refine ⟨i, _, List.getElem?_eq_getElem hic, ?_⟩
  have hh := A.calls i pc _ h1 (List.getElem?_eq_getElem hic)
  subst ht
  cases pc with
  | at_ p =>
    cases p with
    | panic => exact hh _ .panic
    | elem f i' k =>
      simp only [Mix.rstep] at h2
      split_ifs at h2 with c
      exact hh _ (.beyond (Nat.le_refl _) ⟨hn, rfl⟩ (by unfold Mix.Sys.val; rw [show Pool.val _ = Pool.elems _ _ from rfl, Fits.length (A.ok f)]; omega))
    | ret r => cases h2
    | count f k => cases h2
    | range f k => cases h2
    | assign fs k => cases h2
  | pick f i hd k => cases h2
  | walk f hd acc k => simp only [Mix.rstep] at h2; split_ifs at h2
  | hold hs k => cases h2

/-- C122: and at every moment a list holds what it held at the start and then, in some order, exactly what the goroutines that have returned added to it. -/
theorem C122_values (g : Nat → Nat) (pool : Nat → Pool α) (ok : ∀ f, SliceOK (pool f)) (jobs : List (Nat × α)) (calls : List (Prog α β)) (sch : List Nat) (ho : NoOverlap g (Mix.start pool jobs calls) sch) (n : Nat)
    (f : Nat) : ∃ ts, Outcome jobs f (pool f).val ts ((Mix.run g (Mix.start pool jobs calls) (sch.take n)).val f) ∧
      ∀ t, t ∈ ts ↔ Added (Mix.run g (Mix.start pool jobs calls) (sch.take n)) t ∧ ∃ x, jobs[t]? = some (f, x) := by
  by_cases h : n ≤ sch.length
  · exact (allInv_run g pool ok jobs calls sch ho n h).whole f
  · rw [List.take_of_length_le (by omega)]
    have := (allInv_run g pool ok jobs calls sch ho sch.length (Nat.le_refl _)).whole f
    rwa [List.take_length] at this

/-- One step only makes the lists longer. -/
theorem val_step (g : Nat → Nat) {P : Nat → Nat → Nat → List α → Prop} {jobs : List (Nat × α)} {B : Nat → List α} {progs : List (Prog α β)} {n : Nat} {s : Mix.Sys α β} (I : AllInv jobs B progs P n s) (t : Nat)
    (hP : ∀ f, P t n f (s.val f)) (f : Nat) : s.val f <+: (Mix.step g s t).val f := by
  have tl : s.app.threads.length = jobs.length := by simpa using congrArg List.length I.same
  unfold Mix.step
  split_ifs with c1 c2
  · exact List.prefix_rfl
  · obtain ⟨th, ht⟩ : ∃ th, s.app.threads[t]? = some th := ⟨_, List.getElem?_eq_getElem c2⟩
    obtain ⟨f', e, pc⟩ := th
    obtain ⟨r1, r2, r3⟩ := Build.step_eq g ht
    have a4 := (ainv_step g f' (I.ok f') (I.app t _ ht)).2.2.2.1
    rw [← r2] at a4
    unfold Mix.Sys.val
    dsimp only
    by_cases hf : f = f'
    · subst hf; rw [a4]; exact List.prefix_append _ _
    · rw [r1.pool f hf]; exact List.prefix_rfl
  · rcases hc : s.calls[t - s.app.threads.length]? with _ | pc
    · exact List.prefix_rfl
    dsimp only
    rcases hs : Mix.rstep s.app.pool pc with _ | ⟨pool', pc', acc⟩
    · exact List.prefix_rfl
    obtain ⟨p0, hp0⟩ : ∃ p0, progs[t - s.app.threads.length]? = some p0 := ⟨_, List.getElem?_eq_getElem (by rw [← I.len]; exact (List.getElem?_eq_some_iff.1 hc).1)⟩
    have hO := I.calls _ pc p0 hc hp0
    rw [show jobs.length + (t - s.app.threads.length) = t by omega] at hO
    obtain ⟨rfl, -⟩ := ostep I.ok hP hs hO
    exact List.prefix_rfl

/-- C122: the lists only grow. -/
theorem C122_grows (g : Nat → Nat) (pool : Nat → Pool α) (ok : ∀ f, SliceOK (pool f)) (jobs : List (Nat × α)) (calls : List (Prog α β)) (sch : List Nat) (ho : NoOverlap g (Mix.start pool jobs calls) sch) (f n : Nat) :
    ∀ m, n ≤ m → (Mix.run g (Mix.start pool jobs calls) (sch.take n)).val f <+: (Mix.run g (Mix.start pool jobs calls) (sch.take m)).val f := by
  intro m hm
  induction hm with
  | refl => exact List.prefix_rfl
  | @step m _ ih =>
    refine ih.trans ?_
    by_cases hlt : m < sch.length
    · have A := allInv_run g pool ok jobs calls sch ho m (Nat.le_of_lt hlt)
      have et : sch.take (m + 1) = sch.take m ++ [sch[m]] := by rw [List.take_add_one, List.getElem?_eq_getElem hlt]; rfl
      rw [et, run_snoc]
      exact val_step g A _ (fun f => ⟨List.getElem?_eq_getElem hlt, rfl⟩) f
    · rw [List.take_of_length_le (by omega), List.take_of_length_le (by omega)]; exact List.prefix_rfl

/-- C122: a call during which the lists do not change does what it does alone. -/
theorem C122_undisturbed (g : Nat → Nat) (pool : Nat → Pool α) (ok : ∀ f, SliceOK (pool f)) (jobs : List (Nat × α)) (calls : List (Prog α β)) (sch : List Nat) (ho : NoOverlap g (Mix.start pool jobs calls) sch)
    (i : Nat) (p : Prog α β) (hp : calls[i]? = some p) (r : β) (h : HasReturned (Mix.run g (Mix.start pool jobs calls) sch) i r) (v : Nat → List α)
    (hv : ∀ j, sch[j]? = some (jobs.length + i) → ∀ f, (Mix.run g (Mix.start pool jobs calls) (sch.take j)).val f = v f) : alone v p = .ok r :=
  Finds.alone (fun j f l hl => by rw [hl.2, hv j hl.1]) (C122_orderly g pool ok jobs calls sch ho i p hp r h)

/-! ## Calls that nobody interrupts -/

theorem run_replicate_succ (g : Nat → Nat) (s : Mix.Sys α β) (n t : Nat) : Mix.run g s (List.replicate (n + 1) t) = Mix.run g (Mix.step g s t) (List.replicate n t) := rfl

theorem step_call (g : Nat → Nat) {s : Mix.Sys α β} (hc : s.crashed = false) {i : Nat} {pc : RPC α β} (h : s.calls[i]? = some pc) :
    (Mix.rstep s.app.pool pc = none → (Mix.step g s (s.app.threads.length + i)).crashed = true) ∧
    (∀ pool' pc' acc, Mix.rstep s.app.pool pc = some (pool', pc', acc) → (Mix.step g s (s.app.threads.length + i)).crashed = false ∧ (Mix.step g s (s.app.threads.length + i)).app.pool = pool' ∧
      (Mix.step g s (s.app.threads.length + i)).app.threads = s.app.threads ∧ (Mix.step g s (s.app.threads.length + i)).calls[i]? = some pc') := by
  unfold Mix.step
  rw [if_neg (by simp [hc]), if_neg (by omega), Nat.add_sub_cancel_left, h]
  dsimp only
  constructor
  · intro e; rw [e]
  · intro pool' pc' acc e
    rw [e]
    exact ⟨hc, rfl, rfl, List.getElem?_set_self (List.getElem?_eq_some_iff.1 h).1⟩

theorem solo_ret (g : Nat → Nat) {i : Nat} {r : β} : ∀ (N : Nat) {s : Mix.Sys α β}, s.crashed = false → s.calls[i]? = some (.at_ (.ret r)) →
    Ends s (Mix.run g s (List.replicate N (s.app.threads.length + i))) i (.ok r)
  | 0, s, hc, h => ⟨hc, rfl, rfl, h⟩
  | N + 1, s, hc, h => by
    obtain ⟨k1, k2, k3, k4⟩ := (step_call g hc h).2 _ _ _ rfl
    have ih := solo_ret g N k1 k4
    rw [k3] at ih
    rw [run_replicate_succ]
    exact ⟨ih.1, ih.2.1.trans k2, ih.2.2.1.trans k3, ih.2.2.2⟩

omit [Inhabited α] in
/-- A state from which a call begins with `p'` and the same lists. -/
theorem _root_.Verif.Spec.Ends.from {s s1 s' : Mix.Sys α β} {i : Nat} {r : Res β} (h : Ends s1 s' i r) (h1 : s1.app.pool = s.app.pool) (h2 : s1.app.threads = s.app.threads) : Ends s s' i r := by
  cases r with
  | ok r => exact ⟨h.1, h.2.1.trans h1, h.2.2.1.trans h2, h.2.2.2⟩
  | err e => exact h
  | panic => exact h

theorem solo_walk (g : Nat → Nat) {i f : Nat} {hd : RefSlice} {k : List α → Prog α β} : ∀ (d : Nat) {s : Mix.Sys α β} {acc : List α}, s.crashed = false → Fits (s.app.pool f) hd →
    s.calls[i]? = some (.walk f hd acc k) → hd.len = acc.length + d → acc = ((s.app.pool f).elems hd).take acc.length →
    ∃ s1, Mix.run g s (List.replicate (d + 1) (s.app.threads.length + i)) = s1 ∧ s1.crashed = false ∧ s1.app.pool = s.app.pool ∧ s1.app.threads = s.app.threads ∧
      s1.calls[i]? = some (.at_ (k ((s.app.pool f).elems hd)))
  | 0, s, acc, hc, hf, h, hd', ha => by
    obtain ⟨k1, k2, k3, k4⟩ := (step_call g hc h).2 s.app.pool (.at_ (k acc)) [] (by unfold Mix.rstep; dsimp only; rw [if_neg (by omega)])
    refine ⟨_, rfl, k1, k2, k3, ?_⟩
    have e : (s.app.pool f).elems hd = acc := by rw [ha, List.take_of_length_le (by rw [hf.length]; omega)]
    rw [e]; exact k4
  | d + 1, s, acc, hc, hf, h, hd', ha => by
    have c : acc.length < hd.len := by omega
    obtain ⟨k1, k2, k3, k4⟩ := (step_call g hc h).2 s.app.pool _ _ (by unfold Mix.rstep; dsimp only; rw [if_pos c])
    have ha' : acc ++ [((s.app.pool f).arrays.getD hd.arr []).getD acc.length default] = ((s.app.pool f).elems hd).take (acc.length + 1) := by
      rw [List.take_add_one, ← ha, hf.get c]
      rfl
    have ih := solo_walk g d (s := Mix.step g s (s.app.threads.length + i)) k1 (by rw [k2]; exact hf) k4 (by simp; omega) (by rw [k2]; simpa using ha')
    rw [k3, k2] at ih
    obtain ⟨s1, e1, j1, j2, j3, j4⟩ := ih
    exact ⟨s1, e1, j1, j2, j3, j4⟩

theorem solo_call (g : Nat → Nat) {i d M : Nat} {p : Prog α β} (hl : Looks M d p) : ∀ {s : Mix.Sys α β} (N : Nat), s.crashed = false → (∀ f, SliceOK (s.app.pool f)) → (∀ f, (s.app.pool f).hdr.len ≤ M) →
    s.calls[i]? = some (.at_ p) → d * (M + 2) + 1 ≤ N → Ends s (Mix.run g s (List.replicate N (s.app.threads.length + i))) i (alone s.val p) := by
  induction hl with
  | ret r =>
    intro s N hc _ _ h _
    exact solo_ret g N hc h
  | panic =>
    intro s N hc _ _ h hN
    obtain ⟨N, rfl⟩ : ∃ m, N = m + 1 := ⟨N - 1, by omega⟩
    rw [run_replicate_succ, run_crashed g ((step_call g hc h).1 rfl)]
    exact (step_call g hc h).1 rfl
  | @count d f k _ ih =>
    intro s N hc ok hM h hN
    obtain ⟨N, rfl⟩ : ∃ m, N = m + 1 := ⟨N - 1, by omega⟩
    obtain ⟨k1, k2, k3, k4⟩ := (step_call g hc h).2 _ _ _ rfl
    have := ih (s.app.pool f).hdr.len N k1 (by rw [k2]; exact ok) (by rw [k2]; exact hM) k4 (by rw [Nat.add_mul] at hN; omega)
    rw [run_replicate_succ, alone_count, show (s.val f).length = (s.app.pool f).hdr.len from Fits.length (ok f)]
    rw [k3] at this
    have ev : (Mix.step g s (s.app.threads.length + i)).val = s.val := by funext x; unfold Mix.Sys.val; rw [k2]
    rw [ev] at this
    exact this.from k2 k3
  | @elem d f j k _ ih =>
    intro s N hc ok hM h hN
    obtain ⟨N, rfl⟩ : ∃ m, N = m + 1 + 1 := ⟨N - 2, by rw [Nat.add_mul] at hN; omega⟩
    rw [run_replicate_succ]
    have hlen : (s.val f).length = (s.app.pool f).hdr.len := Fits.length (ok f)
    by_cases c : j < (s.app.pool f).hdr.len
    · obtain ⟨k1, k2, k3, k4⟩ := (step_call g hc h).2 _ _ _ (by unfold Mix.rstep; dsimp only; rw [if_pos c])
      obtain ⟨j1, j2, j3, j4⟩ := (step_call g k1 k4).2 _ _ _ rfl
      rw [k3] at j1 j2 j3 j4
      have e2 : (Mix.step g (Mix.step g s (s.app.threads.length + i)) (s.app.threads.length + i)).app.pool = s.app.pool := j2.trans k2
      have := ih (((s.app.pool f).arrays.getD (s.app.pool f).hdr.arr []).getD j default) N j1 (by rw [e2]; exact ok) (by rw [e2]; exact hM) (by rw [j4, k2]) (by rw [Nat.add_mul] at hN; omega)
      have hx : (s.val f)[j]? = some (((s.app.pool f).arrays.getD (s.app.pool f).hdr.arr []).getD j default) := Fits.get (ok f) c
      rw [run_replicate_succ, alone_elem hx]
      rw [j3] at this
      have ev : (Mix.step g (Mix.step g s (s.app.threads.length + i)) (s.app.threads.length + i)).val = s.val := by funext x; unfold Mix.Sys.val; rw [e2]
      rw [ev] at this
      exact this.from e2 j3
    · have hr := (step_call g hc h).1 (by unfold Mix.rstep; dsimp only; rw [if_neg c])
      rw [run_crashed g hr]
      have : alone s.val (.elem f j k) = .panic := by
        unfold alone; rw [List.getElem?_eq_none (by rw [hlen]; omega)]
      rw [this]
      exact hr
  | @range d f k _ ih =>
    intro s N hc ok hM h hN
    have hm := hM f
    obtain ⟨N, rfl⟩ : ∃ m, N = m + (s.app.pool f).hdr.len + 1 + 1 := ⟨N - (s.app.pool f).hdr.len - 2, by rw [Nat.add_mul] at hN; omega⟩
    obtain ⟨k1, k2, k3, k4⟩ := (step_call g hc h).2 _ _ _ rfl
    obtain ⟨s1, e1, j1, j2, j3, j4⟩ := solo_walk g (s.app.pool f).hdr.len (s := Mix.step g s (s.app.threads.length + i)) k1 (by rw [k2]; exact ok f) k4 (by simp) (by simp)
    rw [k3] at e1 j3
    rw [k2] at j2 j4
    have e : Mix.run g s (List.replicate (N + (s.app.pool f).hdr.len + 1 + 1) (s.app.threads.length + i)) = Mix.run g s1 (List.replicate N (s.app.threads.length + i)) := by
      rw [run_replicate_succ, show N + (s.app.pool f).hdr.len + 1 = (s.app.pool f).hdr.len + 1 + N by omega, List.replicate_add, Mix.run_append, e1]
    have := ih ((s.app.pool f).elems (s.app.pool f).hdr) (by rw [Fits.length (ok f)]; exact hm) N j1 (by rw [j2]; exact ok) (by rw [j2]; exact hM) j4 (by rw [Nat.add_mul] at hN; omega)
    rw [e, alone_range]
    rw [j3] at this
    have ev : s1.val = s.val := by funext x; unfold Mix.Sys.val; rw [j2]
    rw [ev] at this
    exact this.from j2 j3
  | @assign d fs k _ ih =>
    intro s N hc ok hM h hN
    obtain ⟨N, rfl⟩ : ∃ m, N = m + 1 + 1 := ⟨N - 2, by rw [Nat.add_mul] at hN; omega⟩
    obtain ⟨k1, k2, k3, k4⟩ := (step_call g hc h).2 _ _ _ rfl
    obtain ⟨j1, j2, j3, j4⟩ := (step_call g k1 k4).2 _ _ _ rfl
    rw [k3] at j1 j2 j3 j4
    have e2 : (Mix.step g (Mix.step g s (s.app.threads.length + i)) (s.app.threads.length + i)).app.pool = s.app.pool := by
      rw [j2, k2]
      exact restore_same fun f h e => (lookup_map fs (fun f => (s.app.pool f).hdr) f h e).1
    have := ih N j1 (by rw [e2]; exact ok) (by rw [e2]; exact hM) j4 (by rw [Nat.add_mul] at hN; omega)
    rw [run_replicate_succ, run_replicate_succ]
    rw [j3] at this
    have ev : (Mix.step g (Mix.step g s (s.app.threads.length + i)) (s.app.threads.length + i)).val = s.val := by funext x; unfold Mix.Sys.val; rw [e2]
    rw [ev] at this
    exact this.from e2 j3

omit [Inhabited α] in
theorem hdr_le {jobs : List (Nat × α)} {slot : Nat → Option Nat} {f : Nat} {B : List α} {P : Pool α} {h : RefSlice} (hg : Build.Good jobs slot f B P h) : h.len ≤ B.length + jobs.length := by
  obtain ⟨ts, ho⟩ := good_poss hg
  have h1 := outcome_length ho
  rw [elems_length hg] at h1
  obtain ⟨nd, xs, ha, -⟩ := ho
  have h2 : ts.length ≤ jobs.length := by
    have hsub : ts ⊆ List.range jobs.length := fun t ht => by
      obtain ⟨x, hx⟩ := addedBy_mem ha t ht
      exact List.mem_range.2 (List.getElem?_eq_some_iff.1 hx).1
    simpa using (List.subperm_of_subset nd hsub).length_le
  omega

/-- C122: at whatever moment, in whatever schedule, a call that begins and is not interrupted does what it does alone on what the lists hold then (others may be in the middle of adding). -/
theorem C122_uninterrupted (g : Nat → Nat) (pool : Nat → Pool α) (ok : ∀ f, SliceOK (pool f)) (jobs : List (Nat × α)) (calls : List (Prog α β)) (sch : List Nat)
    (hc : (Mix.run g (Mix.start pool jobs calls) sch).crashed = false) (i d M N : Nat) (p : Prog α β) (hp : (Mix.run g (Mix.start pool jobs calls) sch).calls[i]? = some (.at_ p)) (hd : Looks M d p)
    (hM : ∀ f, (pool f).val.length + jobs.length ≤ M) (hN : d * (M + 2) + 1 ≤ N) :
    Ends (Mix.run g (Mix.start pool jobs calls) sch) (Mix.run g (Mix.start pool jobs calls) (sch ++ List.replicate N (jobs.length + i))) i (alone (Mix.run g (Mix.start pool jobs calls) sch).val p) := by
  obtain ⟨slots, I⟩ := minv_run g sch (minv_start pool ok jobs calls)
  rw [Mix.run_append, ← threads_len g pool ok jobs calls sch]
  exact solo_call g hd N hc (fun f => ⟨(I.app f).hdr.len, (I.app f).hdr.cap⟩) (fun f => Nat.le_trans (hdr_le (I.app f).hdr) (hM f)) hp hN

/-! ## No call waits -/

/-- The steps a call still needs, when no header is longer than `M`. -/
def Left (M n : Nat) : RPC α β → Prop
  | .at_ p => ∃ d, Looks M d p ∧ d * (M + 2) ≤ n
  | .pick _ _ _ k => ∃ d, (∀ x, Looks M d (k x)) ∧ d * (M + 2) + 1 ≤ n
  | .walk _ h acc k => ∃ d, (∀ l, l.length ≤ M → Looks M d (k l)) ∧ h.len ≤ M ∧ acc.length ≤ h.len ∧ d * (M + 2) + (h.len - acc.length) + 1 ≤ n
  | .hold _ k => ∃ d, Looks M d k ∧ d * (M + 2) + 1 ≤ n

theorem left_rstep {M n : Nat} {pool pool' : Nat → Pool α} (hM : ∀ f, (pool f).hdr.len ≤ M) {pc pc' : RPC α β} {acc : List (Bool × Loc)} (h : Mix.rstep pool pc = some (pool', pc', acc)) (hl : Left M n pc) :
    Left M (n - 1) pc' := by
  cases pc with
  | at_ p =>
    obtain ⟨d, hd, hn⟩ := hl
    cases hd with
    | ret r =>
      simp only [Mix.rstep, Option.some.injEq, Prod.mk.injEq] at h; obtain ⟨-, rfl, -⟩ := h
      exact ⟨0, .ret r, by omega⟩
    | panic => cases h
    | @count d f k hk =>
      simp only [Mix.rstep, Option.some.injEq, Prod.mk.injEq] at h; obtain ⟨-, rfl, -⟩ := h
      exact ⟨d, hk _, by rw [Nat.add_mul] at hn; omega⟩
    | @elem d f i k hk =>
      simp only [Mix.rstep] at h
      split_ifs at h
      simp only [Option.some.injEq, Prod.mk.injEq] at h; obtain ⟨-, rfl, -⟩ := h
      exact ⟨d, hk, by rw [Nat.add_mul] at hn; omega⟩
    | @range d f k hk =>
      simp only [Mix.rstep, Option.some.injEq, Prod.mk.injEq] at h; obtain ⟨-, rfl, -⟩ := h
      have := hM f
      exact ⟨d, hk, this, Nat.zero_le _, by rw [Nat.add_mul] at hn; simp; omega⟩
    | @assign d fs k hk =>
      simp only [Mix.rstep, Option.some.injEq, Prod.mk.injEq] at h; obtain ⟨-, rfl, -⟩ := h
      exact ⟨d, hk, by rw [Nat.add_mul] at hn; omega⟩
  | pick f i hd k =>
    obtain ⟨d, hk, hn⟩ := hl
    simp only [Mix.rstep, Option.some.injEq, Prod.mk.injEq] at h; obtain ⟨-, rfl, -⟩ := h
    exact ⟨d, hk _, by omega⟩
  | walk f hd ac k =>
    obtain ⟨d, hk, hm, ha, hn⟩ := hl
    simp only [Mix.rstep] at h
    split_ifs at h with c
    · simp only [Option.some.injEq, Prod.mk.injEq] at h; obtain ⟨-, rfl, -⟩ := h
      exact ⟨d, hk, hm, by simp; omega, by simp; omega⟩
    · simp only [Option.some.injEq, Prod.mk.injEq] at h; obtain ⟨-, rfl, -⟩ := h
      exact ⟨d, hk _ (by omega), by omega⟩
  | hold hs k =>
    obtain ⟨d, hk, hn⟩ := hl
    simp only [Mix.rstep, Option.some.injEq, Prod.mk.injEq] at h; obtain ⟨-, rfl, -⟩ := h
    exact ⟨d, hk, by omega⟩

theorem step_others (g : Nat → Nat) (s : Mix.Sys α β) (t i : Nat) (h : t ≠ s.app.threads.length + i) : (Mix.step g s t).calls[i]? = s.calls[i]? := by
  unfold Mix.step
  split_ifs with c1 c2
  · rfl
  · rfl
  · rcases s.calls[t - s.app.threads.length]? with _ | pc
    · rfl
    · dsimp only
      rcases Mix.rstep s.app.pool pc with _ | r
      · rfl
      · exact List.getElem?_set_ne (by omega)

/-- C122: whatever the others do, a call with at most `d` looks returns after at most `d * (M + 2) + 1` of its own steps, where no list can become longer than `M`; unless the program has panicked before. -/
theorem C122_finishes (g : Nat → Nat) (pool : Nat → Pool α) (ok : ∀ f, SliceOK (pool f)) (jobs : List (Nat × α)) (calls : List (Prog α β)) (i d M : Nat) (p : Prog α β) (hp : calls[i]? = some p) (hd : Looks M d p)
    (hM : ∀ f, (pool f).val.length + jobs.length ≤ M) (sch : List Nat) (hs : d * (M + 2) + 1 ≤ sch.count (jobs.length + i)) :
    (Mix.run g (Mix.start pool jobs calls) sch).crashed = true ∨ ∃ r, HasReturned (Mix.run g (Mix.start pool jobs calls) sch) i r := by
  have key : ∀ sch : List Nat, (Mix.run g (Mix.start pool jobs calls) sch).crashed = true ∨
      ∃ pc, (Mix.run g (Mix.start pool jobs calls) sch).calls[i]? = some pc ∧ Left M (d * (M + 2) - sch.count (jobs.length + i)) pc ∧
        (d * (M + 2) < sch.count (jobs.length + i) → pc ≠ .at_ .panic) := by
    intro sch
    induction sch using List.reverseRecOn with
    | nil => exact .inr ⟨.at_ p, by simp [Mix.run, Mix.start, hp], ⟨d, hd, by simp⟩, fun h => by simp at h⟩
    | append_singleton sch t ih =>
      rw [run_snoc]
      rcases ih with ih | ⟨pc, h1, h2, h3⟩
      · left; rw [step_crashed g ih]; exact ih
      · have ht := threads_len g pool ok jobs calls sch
        obtain ⟨slots, I⟩ := minv_run g sch (minv_start pool ok jobs calls)
        generalize Mix.run g (Mix.start pool jobs calls) sch = s at *
        by_cases hc : s.crashed = true
        · left; rw [step_crashed g hc]; exact hc
        by_cases c : t = jobs.length + i
        · subst c
          rw [← ht]
          obtain ⟨k1, k2⟩ := step_call g (by simpa using hc) h1
          rcases hr : Mix.rstep s.app.pool pc with _ | ⟨pool', pc', acc⟩
          · exact .inl (k1 hr)
          · right
            have := left_rstep (fun f => Nat.le_trans (hdr_le (I.app f).hdr) (hM f)) hr h2
            refine ⟨pc', (k2 _ _ _ hr).2.2.2, ?_, ?_⟩
            · rw [List.count_append, List.count_singleton_self, ← Nat.sub_sub, ht]; exact this
            · rw [List.count_append, List.count_singleton_self]
              intro hlt e
              have h0 : d * (M + 2) - sch.count (s.app.threads.length + i) = 0 := by omega
              rw [ht] at h0
              rw [h0] at h2
              -- a call with nothing left is at its return
              cases pc with
              | at_ q =>
                obtain ⟨d', hd', hn⟩ := h2
                have : d' = 0 := by
                  rcases Nat.eq_zero_or_pos d' with h | h
                  · exact h
                  · have := Nat.mul_pos h (show 0 < M + 2 by omega); omega
                subst this
                cases hd' with
                | ret r =>
                  simp only [Mix.rstep, Option.some.injEq, Prod.mk.injEq] at hr
                  rw [← hr.2.1] at e; cases e
                | panic => cases hr
              | pick f j hd k => obtain ⟨_, _, hn⟩ := h2; omega
              | walk f hd ac k => obtain ⟨_, _, _, _, hn⟩ := h2; omega
              | hold hs k => obtain ⟨_, _, hn⟩ := h2; omega
        · right
          refine ⟨pc, by rw [step_others g s t i (by rw [ht]; exact c)]; exact h1, ?_, ?_⟩
          · rw [List.count_append, List.count_singleton, beq_false_of_ne c]; exact h2
          · rw [List.count_append, List.count_singleton, beq_false_of_ne c]; exact h3
  rcases key sch with h | ⟨pc, h1, h2, h3⟩
  · exact .inl h
  · right
    rw [Nat.sub_eq_zero_of_le (by omega)] at h2
    cases pc with
    | at_ q =>
      obtain ⟨d', hd', hn⟩ := h2
      have : d' = 0 := by
        rcases Nat.eq_zero_or_pos d' with h | h
        · exact h
        · have := Nat.mul_pos h (show 0 < M + 2 by omega); omega
      subst this
      cases hd' with
      | ret r => exact ⟨r, h1⟩
      | panic => exact absurd rfl (h3 (by omega))
    | pick f j hd k => obtain ⟨_, _, hn⟩ := h2; omega
    | walk f hd ac k => obtain ⟨_, _, _, _, hn⟩ := h2; omega
    | hold hs k => obtain ⟨_, _, hn⟩ := h2; omega

/-! ## Looking changes nothing -/

/-- A call that will not assign. -/
def NoAssign : RPC α β → Prop
  | .at_ p => ∀ f, ¬ MayAssign f p
  | .pick _ _ _ k => ∀ x f, ¬ MayAssign f (k x)
  | .walk _ _ _ k => ∀ l f, ¬ MayAssign f (k l)
  | .hold hs k => hs = [] ∧ ∀ f, ¬ MayAssign f k

theorem noAssign_rstep {pool pool' : Nat → Pool α} {pc pc' : RPC α β} {acc : List (Bool × Loc)} (h : Mix.rstep pool pc = some (pool', pc', acc)) (hn : NoAssign pc) : pool' = pool ∧ NoAssign pc' := by
  cases pc with
  | at_ p =>
    cases p with
    | ret r => simp only [Mix.rstep, Option.some.injEq, Prod.mk.injEq] at h; obtain ⟨rfl, rfl, -⟩ := h; exact ⟨rfl, hn⟩
    | panic => cases h
    | count f k => simp only [Mix.rstep, Option.some.injEq, Prod.mk.injEq] at h; obtain ⟨rfl, rfl, -⟩ := h; exact ⟨rfl, fun f' hf => hn f' (.count' _ hf)⟩
    | elem f i k =>
      simp only [Mix.rstep] at h
      split_ifs at h
      simp only [Option.some.injEq, Prod.mk.injEq] at h; obtain ⟨rfl, rfl, -⟩ := h; exact ⟨rfl, fun x f' hf => hn f' (.elem' x hf)⟩
    | range f k => simp only [Mix.rstep, Option.some.injEq, Prod.mk.injEq] at h; obtain ⟨rfl, rfl, -⟩ := h; exact ⟨rfl, fun l f' hf => hn f' (.range' l hf)⟩
    | assign fs k =>
      simp only [Mix.rstep, Option.some.injEq, Prod.mk.injEq] at h; obtain ⟨rfl, rfl, -⟩ := h
      refine ⟨rfl, ?_, fun f' hf => hn f' (.assign' hf)⟩
      cases fs with
      | nil => rfl
      | cons f fs => exact absurd (.assign (List.mem_cons_self ..)) (hn f)
  | pick f i hd k => simp only [Mix.rstep, Option.some.injEq, Prod.mk.injEq] at h; obtain ⟨rfl, rfl, -⟩ := h; exact ⟨rfl, hn _⟩
  | walk f hd ac k =>
    simp only [Mix.rstep] at h
    split_ifs at h with c
    · simp only [Option.some.injEq, Prod.mk.injEq] at h; obtain ⟨rfl, rfl, -⟩ := h; exact ⟨rfl, hn⟩
    · simp only [Option.some.injEq, Prod.mk.injEq] at h; obtain ⟨rfl, rfl, -⟩ := h; exact ⟨rfl, hn _⟩
  | hold hs k =>
    simp only [Mix.rstep, Option.some.injEq, Prod.mk.injEq] at h; obtain ⟨rfl, rfl, -⟩ := h
    obtain ⟨rfl, h2⟩ := hn
    exact ⟨restore_same (fun f h e => by cases e), h2⟩

/-- C122: calls that do not assign leave no trace: the lists and the goroutines that add are at every moment as if these were alone, with the schedule of their own steps. -/
theorem C122_no_trace (g : Nat → Nat) (pool : Nat → Pool α) (jobs : List (Nat × α)) (calls : List (Prog α β)) (hn : ∀ p ∈ calls, ∀ f, ¬ MayAssign f p) (sch : List Nat)
    (hc : (Mix.run g (Mix.start pool jobs calls) sch).crashed = false) :
    let s := Mix.run g (Mix.start pool jobs calls) sch
    let b := Build.run g (Build.start pool jobs) (sch.filter (· < jobs.length))
    s.app.pool = b.pool ∧ s.app.threads = b.threads := by
  suffices key : (Mix.run g (Mix.start pool jobs calls) sch).crashed = true ∨
      ((Mix.run g (Mix.start pool jobs calls) sch).app.pool = (Build.run g (Build.start pool jobs) (sch.filter (· < jobs.length))).pool ∧
       (Mix.run g (Mix.start pool jobs calls) sch).app.threads = (Build.run g (Build.start pool jobs) (sch.filter (· < jobs.length))).threads ∧
       (Build.run g (Build.start pool jobs) (sch.filter (· < jobs.length))).threads.length = jobs.length ∧
       ∀ pc ∈ (Mix.run g (Mix.start pool jobs calls) sch).calls, NoAssign pc) by
    rcases key with h | h
    · rw [hc] at h; cases h
    · exact ⟨h.1, h.2.1⟩
  clear hc
  induction sch using List.reverseRecOn with
  | nil =>
    right
    refine ⟨rfl, rfl, by simp [Build.run, Build.start], ?_⟩
    intro pc hpc
    obtain ⟨p, hp, rfl⟩ := List.mem_map.1 hpc
    exact hn p hp
  | append_singleton sch t ih =>
    rw [run_snoc]
    rcases ih with ih | ⟨h1, h2, h3, h4⟩
    · left; rw [step_crashed g ih]; exact ih
    by_cases hc : (Mix.run g (Mix.start pool jobs calls) sch).crashed = true
    · left; rw [step_crashed g hc]; exact hc
    have e : Build.run g (Build.start pool jobs) ((sch ++ [t]).filter (· < jobs.length)) =
        if t < jobs.length then Build.step g (Build.run g (Build.start pool jobs) (sch.filter (· < jobs.length))) t else Build.run g (Build.start pool jobs) (sch.filter (· < jobs.length)) := by
      rw [List.filter_append]
      by_cases c : t < jobs.length
      · rw [if_pos c]; simp [c, Build.run]
      · rw [if_neg c]; simp [c]
    rw [e]
    generalize Build.run g (Build.start pool jobs) (sch.filter (· < jobs.length)) = b at *
    generalize Mix.run g (Mix.start pool jobs calls) sch = s at *
    have tl : s.app.threads.length = jobs.length := by rw [h2, h3]
    have hstep : ∀ a : Build.Sys α, a.pool = b.pool → a.threads = b.threads → (Build.step g a t).pool = (Build.step g b t).pool ∧ (Build.step g a t).threads = (Build.step g b t).threads ∧
        (Build.step g b t).threads.length = b.threads.length := by
      intro a ha hb
      unfold Build.step
      rw [hb]
      rcases b.threads[t]? with _ | th
      · exact ⟨ha, hb, rfl⟩
      · dsimp only
        rw [ha]
        exact ⟨rfl, rfl, by simp⟩
    unfold Mix.step
    rw [if_neg hc, tl]
    split_ifs with c1
    · obtain ⟨k1, k2, k3⟩ := hstep s.app h1 h2
      exact .inr ⟨k1, k2, k3.trans h3, h4⟩
    · rcases hcall : s.calls[t - jobs.length]? with _ | pc
      · exact .inr ⟨h1, h2, h3, h4⟩
      dsimp only
      rcases hr : Mix.rstep s.app.pool pc with _ | ⟨pool', pc', acc⟩
      · exact .inl rfl
      right
      obtain ⟨rfl, hn'⟩ := noAssign_rstep hr (h4 pc (List.mem_of_getElem? hcall))
      refine ⟨h1, h2, h3, ?_⟩
      intro q hq
      rcases List.mem_or_eq_of_mem_set hq with hq | rfl
      · exact h4 q hq
      · exact hn'

/-! ## Data races -/

/-- C122: at no moment is there a data race unless one goroutine replaces (adds to, or assigns) a list that another uses. So adding outputs while others only look at the inputs is free of races, and so are any calls that only look, together. -/
theorem C122_race_only (g : Nat → Nat) (pool : Nat → Pool α) (jobs : List (Nat × α)) (calls : List (Prog α β)) (sch : List Nat)
    (h : BuildRace (Mix.run g (Mix.start pool jobs calls) sch).app.log) : ∃ f t u, t ≠ u ∧ Replaces jobs calls f t ∧ Uses jobs calls f u := by
  have I := mixLog_run g sch (mixLog_start pool jobs calls)
  obtain ⟨a, ha, b, hb, hne, hloc, hw⟩ := h
  obtain ⟨f, h1, -, h3⟩ := I.own a ha
  obtain ⟨f', k1, k2, -⟩ := I.own b hb
  rw [hloc] at h1
  cases h1.unique k1
  exact ⟨f, _, _, hne, h3 hw, k2⟩

/-- C122: and there has been one as soon as a goroutine has added to a list and another has added to it too, or a call has returned that cannot return without looking at it. -/
theorem C122_race (g : Nat → Nat) (pool : Nat → Pool α) (jobs : List (Nat × α)) (calls : List (Prog α β)) (sch : List Nat) (f t : Nat) (x : α) (ht : jobs[t]? = some (f, x))
    (hd : Added (Mix.run g (Mix.start pool jobs calls) sch) t)
    (hu : (∃ u y, u ≠ t ∧ jobs[u]? = some (f, y) ∧ Added (Mix.run g (Mix.start pool jobs calls) sch) u) ∨
      ∃ i p r, calls[i]? = some p ∧ MustLook f p ∧ HasReturned (Mix.run g (Mix.start pool jobs calls) sch) i r) :
    BuildRace (Mix.run g (Mix.start pool jobs calls) sch).app.log := by
  have I := mixLog_run g sch (mixLog_start pool jobs calls)
  generalize Mix.run g (Mix.start pool jobs calls) sch = s at *
  have get : ∀ u y, jobs[u]? = some (f, y) → Added s u → ⟨u, true, .header f⟩ ∈ s.app.log := by
    rintro u y hu ⟨th, h1, h2⟩
    have h3 := I.stored u th h1 h2
    have e : jobs[u]? = some (th.field, th.elem) := by rw [← I.same, List.getElem?_map, h1]; rfl
    rw [hu] at e
    cases e
    exact h3
  have hm := get t x ht hd
  rcases hu with ⟨u, y, hne, hy, hu⟩ | ⟨i, p, r, hp, hl, hr⟩
  · exact ⟨_, hm, _, get u y hy hu, Ne.symm hne, rfl, rfl⟩
  · obtain ⟨p0, h0, -, -, h3⟩ := I.calls i _ hr
    rw [hp] at h0
    cases h0
    rcases h3 f hl with h | h
    · have : t < jobs.length := (List.getElem?_eq_some_iff.1 ht).1
      exact ⟨_, hm, _, h, by dsimp only; omega, rfl, rfl⟩
    · cases h

end

end Verif.Props
