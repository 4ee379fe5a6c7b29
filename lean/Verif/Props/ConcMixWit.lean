import Verif.Props.ConcMixSign
import Verif.Props.SigHash
import Verif.Props.Redeem
/-!
# C122, C123: what goes wrong, on concrete transactions, and examples
-/
namespace Verif.Props
open Verif Verif.Spec Verif.Mix
open Verif.Build (Pool Loc Access)
open Verif.Obj (RefSlice)

/-- The transaction in memory, its slices full (as after parsing). -/
def poolOf (tx : Transaction) (f : Nat) : Pool Elem := ⟨[txVal tx f], ⟨0, (txVal tx f).length, (txVal tx f).length⟩⟩

theorem poolOf_holds (tx : Transaction) : HoldsTx (poolOf tx) tx := by
  intro f
  constructor
  · simp [SliceOK, poolOf]
  · simp [Pool.val, Pool.elems, poolOf]

/-- A new output and a new input. -/
def exNewOut : Output := ⟨5, [0x51]⟩
def exNewIn : Input := { PreviousTxID := List.replicate 64 50, PreviousTxOutIndex := 1, PreviousTxSatoshis := 9, PreviousTxScript := some [0x51], UnlockingScript := none, SequenceNumber := 3 }

/-- `ToBytes` counts the outputs, then another goroutine adds one, then `ToBytes` goes through them. -/
def exTornSch : List Nat := List.replicate 6 1 ++ List.replicate 7 0 ++ List.replicate 6 1

/-- What it returns: the number 2, and three outputs. -/
def exTornBytes : Bytes := putUint32 2 ++ [2] ++ exTx.Inputs.flatMap (Input.ToBytes · false) ++ [2] ++ (exTx.Outputs ++ [exNewOut]).flatMap Output.ToBytes ++ putUint32 7

/-- What call `i` has returned, if it has. -/
def resultOf (s : Mix.Sys Elem Got) (i : Nat) : Option Got := match s.calls[i]? with
  | some (.at_ (.ret r)) => some r
  | _ => none

theorem returns_of {s : Mix.Sys Elem Got} {i : Nat} {r : Got} (h : resultOf s i = some r) : HasReturned s i r := by
  unfold resultOf at h
  unfold HasReturned
  split at h
  · cases h; assumption
  · cases h

/-- The goroutines that have returned. -/
def addedList (s : Mix.Sys Elem Got) : List Bool := s.app.threads.map fun th => match th.pc with
  | .done => true
  | _ => false

theorem added_of {s : Mix.Sys Elem Got} {t : Nat} (h : (addedList s)[t]? = some true) : Added s t := by
  unfold addedList at h
  rw [List.getElem?_map, Option.map_eq_some_iff] at h
  obtain ⟨th, h1, h2⟩ := h
  refine ⟨th, h1, ?_⟩
  split at h2
  · assumption
  · cases h2

/-- One goroutine that adds, and calls that only look. -/
theorem one_adder (H : HashFns) (g : Nat → Nat) (pool : Nat → Pool Elem) (tx : Transaction) (e : Elem) (cs : List OnTx) (hcs : ∀ c ∈ cs, ¬ c.Assigns) (sch : List Nat) :
    NoOverlap g (Mix.start pool (adds [e]) (cs.map (OnTx.prog H tx))) sch := by
  refine C122_one_writer g pool _ _ ?_ sch
  have only : ∀ f t, Replaces (adds [e]) (cs.map (OnTx.prog H tx)) f t → t = 0 := by
    rintro f t (⟨x, h⟩ | ⟨i, p, -, hp, ha⟩)
    · have := (List.getElem?_eq_some_iff.1 h).1
      simp [adds] at this
      exact this
    · rw [List.getElem?_map, Option.map_eq_some_iff] at hp
      obtain ⟨c, hc, rfl⟩ := hp
      exact absurd ha (C122_only_looks H tx c (hcs c (List.mem_of_getElem? hc)) f)
  intro f t u ht hu
  rw [only f t ht, only f u hu]

/-- C122 is violated by `ToBytes`: with a single goroutine that adds an output, the bytes returned need not be those of the transaction at any moment; they claim two outputs and hold three, so that the library itself does not parse them. -/
theorem C122_toBytes_violated :
    let s := fun n => Mix.run (fun _ => 0) (Mix.start (poolOf exTx) (adds [.inr exNewOut]) [OnTx.toBytes.prog toyH exTx]) (exTornSch.take n)
    NoOverlap (fun _ => 0) (s 0) exTornSch ∧ (s 19).crashed = false ∧ Added (s 19) 0 ∧ HasReturned (s 19) 0 (.bytes exTornBytes) ∧ exTornSch.length = 19 ∧ (∀ n, exTornBytes ≠ (now exTx (s n)).ToBytes) ∧
      (Transaction.NewFromBytes ⟨exTornBytes, []⟩).isErr = true := by
  refine ⟨one_adder toyH _ _ exTx _ [.toBytes] (by simp [OnTx.Assigns]) _, by decide +kernel, added_of (by decide +kernel), returns_of (by decide +kernel), by decide +kernel, ?_, by decide +kernel⟩
  intro n
  by_cases h : n < 20
  · revert n
    decide +kernel
  · dsimp only
    rw [List.take_of_length_le (by rw [show exTornSch.length = 19 from rfl]; omega)]
    decide +kernel

/-- A toy hash function in which every byte counts. -/
def mixH : HashFns where
  sha256 := fun b => putUint64 (b.foldl (fun a x => a * 257 + x.toUInt64 + 1) 1) ++ List.replicate 24 0
  ripemd160 := fun b => (b ++ List.replicate 20 0).take 20
  sha256_length := by intro b; rfl
  ripemd160_length := by intro b; simp

/-- `GetInputSignatureHash` with ALL goes through the inputs, another goroutine adds an input, and it goes through them again. -/
def exMixedSch : List Nat := List.replicate 6 1 ++ List.replicate 7 0 ++ List.replicate 12 1

/-- What it returns: the hash of the outpoints is that of two inputs, the hash of the sequence numbers that of three. -/
def exMixedDigest : Bytes := digestRead mixH 2 7 0x41 exSpend.Inputs[0] [0x76, 0xa9] (exSpend.getPrevoutHash mixH) (({ exSpend with Inputs := exSpend.Inputs ++ [exNewIn] } : Transaction).getSequenceHash mixH)
  (Sha256d mixH (exSpend.Outputs.flatMap Output.GetBytesForSigHash))

/-- C122 is violated by `GetInputSignatureHash` with ALL while an input is added: the digest is that of no moment, so a signature for it is worthless. -/
theorem C122_digest_violated :
    let s := fun n => Mix.run (fun _ => 0) (Mix.start (poolOf exSpend) (adds [.inl exNewIn]) [(OnTx.digest 0 0x41).prog mixH exSpend]) (exMixedSch.take n)
    NoOverlap (fun _ => 0) (s 0) exMixedSch ∧ exMixedSch.length = 25 ∧ (s 25).crashed = false ∧ Added (s 25) 0 ∧ HasReturned (s 25) 0 (.bytes exMixedDigest) ∧
      ∀ n, (now exSpend (s n)).GetInputSignatureHash mixH 0 0x41 ≠ .ok exMixedDigest := by
  refine ⟨one_adder mixH _ _ exSpend _ [.digest 0 0x41] (by simp [OnTx.Assigns]) _, by decide +kernel, by decide +kernel, added_of (by decide +kernel), returns_of (by decide +kernel), ?_⟩
  intro n
  by_cases h : n < 26
  · revert n
    decide +kernel
  · dsimp only
    rw [List.take_of_length_le (by rw [show exMixedSch.length = 25 from rfl]; omega)]
    decide +kernel

/-- A transaction with two inputs and no outputs yet. -/
def exNoOut : Transaction := { exSpend with Outputs := [] }

/-- Goroutine 0 reads the (empty) list, goroutines 1 and 2 add their outputs, the call finds two outputs, goroutine 0 stores its list of one output, the call asks for the second. -/
def exShrinkSch : List Nat := [0] ++ List.replicate 7 1 ++ List.replicate 7 2 ++ List.replicate 7 3 ++ List.replicate 6 0 ++ List.replicate 2 3

/-- C122: `C122_safe` needs its hypothesis: when additions overlap, `GetInputSignatureHash` with SINGLE can panic on an input that is there, because the list of outputs becomes shorter. -/
theorem C122_single_crash :
    let s := fun n => Mix.run (fun _ => 0) (Mix.start (poolOf exNoOut) (adds [.inr exNewOut, .inr exNewOut, .inr exNewOut]) [(OnTx.digest 1 0x43).prog toyH exNoOut]) (exShrinkSch.take n)
    (OnTx.digest 1 0x43).Fine exNoOut [.inr exNewOut, .inr exNewOut, .inr exNewOut] ∧ (s 22).val 1 = [.inr exNewOut, .inr exNewOut] ∧ (s 29).val 1 = [.inr exNewOut] ∧ (s 29).crashed = true := by
  refine ⟨⟨by decide, by decide⟩, by decide +kernel, by decide +kernel, by decide +kernel⟩

/-! ## Examples -/

/-- Who is replacing which list. -/
def replacers (s : Mix.Sys Elem Got) : List (Nat × Nat) :=
  (s.app.threads.zipIdx.filterMap fun x => match x.1.pc with
    | .load => none
    | .done => none
    | _ => some (x.1.field, x.2)) ++
  s.calls.zipIdx.flatMap fun x => match x.1 with
    | .hold hs _ => hs.map fun h => (h.1, s.app.threads.length + x.2)
    | _ => []

theorem mem_replacers {s : Mix.Sys Elem Got} {f t : Nat} (h : Replacing s f t) : (f, t) ∈ replacers s := by
  unfold replacers
  rcases h with ⟨th, h1, rfl, h2, h3⟩ | ⟨i, hs, k, rfl, h1, h2⟩
  · refine List.mem_append_left _ (List.mem_filterMap.2 ⟨(th, t), List.mem_zipIdx_iff_getElem?.2 h1, ?_⟩)
    dsimp only
    split
    · exact absurd (by assumption) h2
    · exact absurd (by assumption) h3
    · rfl
  · refine List.mem_append_right _ (List.mem_flatMap.2 ⟨(.hold hs k, i), List.mem_zipIdx_iff_getElem?.2 h1, ?_⟩)
    obtain ⟨x, hx, rfl⟩ := List.mem_map.1 h2
    exact List.mem_map.2 ⟨x, hx, rfl⟩

theorem noOverlap_of {g : Nat → Nat} {s : Mix.Sys Elem Got} {sch : List Nat}
    (h : ∀ n < sch.length + 1, ∀ a ∈ replacers (Mix.run g s (sch.take n)), ∀ b ∈ replacers (Mix.run g s (sch.take n)), a.1 = b.1 → a.2 = b.2) : NoOverlap g s sch := by
  intro p q e f t u ht hu
  have hp : p = sch.take p.length := by rw [e, List.take_left]
  rw [hp] at ht hu
  exact h p.length (by rw [e, List.length_append]; omega) _ (mem_replacers ht) _ (mem_replacers hu) rfl

/-- A transaction that spends two outputs to the same key. -/
def exOwn : Transaction := { exSpend with Inputs := exSpend.Inputs.map fun i => { i with PreviousTxScript := some ([0x76, 0xa9, 0x14] ++ List.replicate 20 7 ++ [0x88, 0xac]) } }

/-- A goroutine adds an output, in the midst of the others' calls; a lock keeps it away from the assignment in the transaction's own `Sign` (call 3). -/
def exLooks : List OnTx := [.toBytes, .digest 0 0x41, .isCoinbase, .sign true 1 0x43, .signAuto false (List.replicate 20 7) 0x41, .total, .outputCount]
def exLooksSch : List Nat := [1, 1, 2, 2, 2, 3, 4, 4, 6, 4] ++ List.replicate 7 0 ++ (List.range 7).flatMap (fun i => List.replicate 60 (i + 1))

theorem exLooks_orderly : NoOverlap (fun _ => 0) (Mix.start (poolOf exOwn) (adds [.inr exNewOut]) (exLooks.map (OnTx.prog toyH exOwn))) exLooksSch := noOverlap_of (by decide +kernel)

/-- They all return. -/
theorem exLooks_return : let s := Mix.run (fun _ => 0) (Mix.start (poolOf exOwn) (adds [.inr exNewOut]) (exLooks.map (OnTx.prog toyH exOwn))) exLooksSch
    (∀ t, t < 1 → Added s t) ∧ ((List.range 7).map fun i => (resultOf s i).isSome) = List.replicate 7 true ∧ resultOf s 5 = some (.number 1000) ∧ resultOf s 6 = some (.number 3) ∧ resultOf s 2 = some (.bool false) := by
  refine ⟨fun t ht => ?_, by decide +kernel, by decide +kernel, by decide +kernel, by decide +kernel⟩
  obtain rfl : t = 0 := by omega
  exact added_of (by decide +kernel)

theorem exLooks_fine : ∀ c ∈ exLooks, c.Fine exOwn [.inr exNewOut] := by
  intro c hc
  simp only [exLooks, List.mem_cons, List.not_mem_nil, or_false] at hc
  rcases hc with rfl | rfl | rfl | rfl | rfl | rfl | rfl
  · trivial
  · exact ⟨by decide, by decide⟩
  · trivial
  · exact ⟨by decide, by decide⟩
  · refine ⟨?_, by decide⟩
    rintro i (hi | hi)
    · revert i
      decide +kernel
    · simp at hi
  · trivial
  · trivial

/-- C122_safe, C122_counts, C122_coinbase, C122_digest, C122_toBytes, C123_sign, C123_kept on them. -/
example : (Mix.run (fun _ => 0) (Mix.start (poolOf exOwn) (adds [.inr exNewOut]) (exLooks.map (OnTx.prog toyH exOwn))) exLooksSch).crashed = false :=
  C122_safe toyH (fun _ => 0) (poolOf_holds exOwn) [.inr exNewOut] exLooks exLooks_fine exLooks_orderly

example : ∃ n, n < exLooksSch.length ∧ (Got.number 3) = .number (now exOwn (Mix.run (fun _ => 0) (Mix.start (poolOf exOwn) (adds [.inr exNewOut]) (exLooks.map (OnTx.prog toyH exOwn))) (exLooksSch.take n))).Outputs.length :=
  (C122_counts toyH (fun _ => 0) (poolOf_holds exOwn) [.inr exNewOut] _ exLooks_orderly (i := 6) (returns_of exLooks_return.2.2.2.1)).2.1 rfl

example : ∃ r, HasReturned (Mix.run (fun _ => 0) (Mix.start (poolOf exOwn) (adds [.inr exNewOut]) (exLooks.map (OnTx.prog toyH exOwn))) exLooksSch) 1 r ∧
    ∃ n, n < exLooksSch.length ∧ asGot ((now exOwn (Mix.run (fun _ => 0) (Mix.start (poolOf exOwn) (adds [.inr exNewOut]) (exLooks.map (OnTx.prog toyH exOwn))) (exLooksSch.take n))).GetInputSignatureHash toyH 0 0x41) = .ok r := by
  obtain ⟨r, hr⟩ := Option.isSome_iff_exists.1 (show (resultOf (Mix.run (fun _ => 0) (Mix.start (poolOf exOwn) (adds [.inr exNewOut]) (exLooks.map (OnTx.prog toyH exOwn))) exLooksSch) 1).isSome = true by decide +kernel)
  exact ⟨r, returns_of hr, C122_digest toyH (fun _ => 0) (poolOf_holds exOwn) [.inr exNewOut] _ exLooks_orderly (by decide) rfl (.inr (.inr (.inl (by simp)))) (returns_of hr)⟩

example : ∃ r, HasReturned (Mix.run (fun _ => 0) (Mix.start (poolOf exOwn) (adds [.inr exNewOut]) (exLooks.map (OnTx.prog toyH exOwn))) exLooksSch) 3 r ∧
    ∃ n, n < exLooksSch.length ∧ asGot ((now exOwn (Mix.run (fun _ => 0) (Mix.start (poolOf exOwn) (adds [.inr exNewOut]) (exLooks.map (OnTx.prog toyH exOwn))) (exLooksSch.take n))).GetInputSignatureHash toyH 1 0x43) = .ok r := by
  obtain ⟨r, hr⟩ := Option.isSome_iff_exists.1 (show (resultOf (Mix.run (fun _ => 0) (Mix.start (poolOf exOwn) (adds [.inr exNewOut]) (exLooks.map (OnTx.prog toyH exOwn))) exLooksSch) 3).isSome = true by decide +kernel)
  exact ⟨r, returns_of hr, C123_sign toyH (fun _ => 0) (poolOf_holds exOwn) [.inr exNewOut] _ exLooks_orderly (by decide) rfl (.inr (.inr (.inl (by simp)))) (returns_of hr)⟩

example : ∃ r, HasReturned (Mix.run (fun _ => 0) (Mix.start (poolOf exOwn) (adds [.inr exNewOut]) (exLooks.map (OnTx.prog toyH exOwn))) exLooksSch) 4 r ∧ ∃ l, r = .signed l ∧ l.length = 2 := by
  obtain ⟨r, hr⟩ := Option.isSome_iff_exists.1 (show (resultOf (Mix.run (fun _ => 0) (Mix.start (poolOf exOwn) (adds [.inr exNewOut]) (exLooks.map (OnTx.prog toyH exOwn))) exLooksSch) 4).isSome = true by decide +kernel)
  obtain ⟨l, n0, e, -, -, -⟩ := C123_signAuto toyH (fun _ => 0) (poolOf_holds exOwn) [.inr exNewOut] _ exLooks_orderly (i := 4) (method := false) (mine := List.replicate 20 7) (by decide) (by decide) rfl
    (.inr (.inr (.inl (by simp)))) (returns_of hr)
  refine ⟨r, returns_of hr, l, e, ?_⟩
  have h : (resultOf (Mix.run (fun _ => 0) (Mix.start (poolOf exOwn) (adds [.inr exNewOut]) (exLooks.map (OnTx.prog toyH exOwn))) exLooksSch) 4).map (fun r => match r with
    | .signed l => l.length
    | _ => 0) = some 2 := by decide +kernel
  rw [hr, e] at h
  exact Option.some.inj h

/-- A lock around `Sign` and `AddOutput`: nothing lost. Without: lost. -/
example : (now exOwn (Mix.run (fun _ => 0) (Mix.start (poolOf exOwn) (adds [.inr exNewOut]) (exLooks.map (OnTx.prog toyH exOwn))) exLooksSch)).Outputs = exOwn.Outputs ++ [exNewOut] := by
  obtain ⟨is, os, -, -, e, hp⟩ := C123_kept (fun _ => 0) (poolOf_holds exOwn) [.inr exNewOut] _ exLooks_orderly exLooks_return.1
  rw [e, show os = [exNewOut] from List.perm_singleton.1 hp]

example : ∃ sch r, let s := Mix.run (fun _ => 0) (Mix.start (poolOf exOwn) (adds [.inr exNewOut, .inl exNewIn]) [(OnTx.sign true 0 0x41).prog toyH exOwn]) sch
    s.crashed = false ∧ (∀ t, t < 2 → Added s t) ∧ HasReturned s 0 r ∧ now exOwn s = exOwn := by
  have hd : (exOwn.GetInputSignatureHash toyH 0 0x41).isOk = true := by decide +kernel
  rcases hg : exOwn.GetInputSignatureHash toyH 0 0x41 with d | e | _
  · obtain ⟨sch, h⟩ := C123_lost toyH (fun _ => 0) (poolOf_holds exOwn) [.inr exNewOut, .inl exNewIn] (.sign true 0 0x41) rfl (.bytes d)
      (by show alone _ (Mix.sign toyH exOwn.Version exOwn.Locktime true 0 0x41) = _; rw [C122_sign_alone, hg]; rfl) (.inl ⟨d, rfl⟩)
    exact ⟨sch, _, h⟩
  · rw [hg] at hd; cases hd
  · rw [hg] at hd; cases hd

/-- Through the signer's own `Sign` nothing is lost on any schedule. -/
example (sch : List Nat) (hd : ∀ t, t < 2 → Added (Mix.run (fun _ => 0) (Mix.start (poolOf exOwn) (adds [.inr exNewOut, .inl exNewIn]) [(OnTx.sign false 0 0x41).prog toyH exOwn]) sch) t) :
    (now exOwn (Mix.run (fun _ => 0) (Mix.start (poolOf exOwn) (adds [.inr exNewOut, .inl exNewIn]) [(OnTx.sign false 0 0x41).prog toyH exOwn]) sch)).Outputs = exOwn.Outputs ++ [exNewOut] :=
  (C123_through_signer toyH (fun _ => 0) (poolOf_holds exOwn) [.inr exNewOut, .inl exNewIn] (by decide) (by decide) [.sign false 0 0x41] (by simp [OnTx.Assigns]) sch hd).2

theorem exOwn_small : ∀ f, (poolOf exOwn f).val.length + (adds [.inr exNewOut]).length ≤ 3
  | 0 => by decide +kernel
  | 1 => by decide +kernel
  | f + 2 => by rw [(poolOf_holds exOwn _).2]; exact Nat.le_add_left _ _

/-- C122_uninterrupted and C122_finishes: `OutputCount` in the midst of an addition; `ToBytes` needs at most 21 steps here. -/
example : HasReturned (Mix.run (fun _ => 0) (Mix.start (poolOf exOwn) (adds [.inr exNewOut]) [(OnTx.outputCount).prog toyH exOwn]) ([0, 0, 0] ++ List.replicate 6 (1 + 0))) 0 (.number 2) :=
  (C122_uninterrupted (fun _ => 0) (poolOf exOwn) (fun f => (poolOf_holds exOwn f).1) (adds [.inr exNewOut]) [(OnTx.outputCount).prog toyH exOwn] [0, 0, 0] (by decide +kernel) 0 1 3 6 _ rfl (C122_looks 3 toyH exOwn .outputCount)
    exOwn_small (by decide)).2.2.2

example (sch : List Nat) (h : 21 ≤ sch.count 1) : (Mix.run (fun _ => 0) (Mix.start (poolOf exOwn) (adds [.inr exNewOut]) [(OnTx.toBytes).prog toyH exOwn]) sch).crashed = true ∨
    ∃ r, HasReturned (Mix.run (fun _ => 0) (Mix.start (poolOf exOwn) (adds [.inr exNewOut]) [(OnTx.toBytes).prog toyH exOwn]) sch) 0 r :=
  C122_finishes (fun _ => 0) (poolOf exOwn) (fun f => (poolOf_holds exOwn f).1) (adds [.inr exNewOut]) [(OnTx.toBytes).prog toyH exOwn] 0 4 3 _ rfl (C122_looks 3 toyH exOwn .toBytes)
    exOwn_small sch h

/-- C122_race: adding an output while another goroutine counts the outputs is a data race; C122_race_only: adding one while another counts the inputs is not. -/
example : BuildRace (Mix.run (fun _ => 0) (Mix.start (poolOf exOwn) (adds [.inr exNewOut]) [OnTx.outputCount.prog toyH exOwn]) (List.replicate 7 0 ++ [1])).app.log :=
  C122_race (fun _ => 0) (poolOf exOwn) (adds [.inr exNewOut]) [OnTx.outputCount.prog toyH exOwn] _ 1 0 (.inr exNewOut) rfl (added_of (by decide +kernel)) (.inr ⟨0, _, .number 3, rfl, .count, returns_of (by decide +kernel)⟩)

example (sch : List Nat) : ¬ BuildRace (Mix.run (fun _ => 0) (Mix.start (poolOf exOwn) (adds [.inr exNewOut]) [OnTx.inputCount.prog toyH exOwn]) sch).app.log := by
  intro h
  obtain ⟨f, t, u, hne, hw, hu⟩ := C122_race_only _ _ _ _ _ h
  have job : ∀ f t (x : Elem), (adds [.inr exNewOut])[t]? = some (f, x) → f = 1 ∧ t = 0 := by
    intro f t x h
    have := (List.getElem?_eq_some_iff.1 h).1
    obtain rfl : t = 0 := by simpa [adds] using this
    cases h
    exact ⟨rfl, rfl⟩
  have hw : f = 1 ∧ t = 0 := by
    rcases hw with ⟨x, h⟩ | ⟨i, p, -, hp, ha⟩
    · exact job f t x h
    · match i, hp with
      | 0, hp => cases hp; exact absurd ha (C122_only_looks toyH exOwn .inputCount (fun h => h) f)
  rcases hu with ⟨x, h⟩ | ⟨i, p, -, hp, ha⟩
  · exact hne (by rw [hw.2, (job f u x h).2])
  · match i, hp with
    | 0, hp =>
      cases hp
      rw [hw.1] at ha
      cases ha with
      | count' n h => cases h

/-- Two goroutines that call the transaction's own `Sign`, for different inputs, race: each stores the whole struct. -/
example : BuildRace (Mix.run (fun _ => 0) (Mix.start (poolOf exOwn) [] [(OnTx.sign true 0 0xc1).prog toyH exOwn, (OnTx.sign true 1 0xc1).prog toyH exOwn]) (List.replicate 20 0 ++ List.replicate 20 1)).app.log := by
  unfold BuildRace
  decide +kernel

end Verif.Props
