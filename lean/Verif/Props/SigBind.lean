import Verif.Props.SigHash
/-!
# C45: the signature hash binds what the flag includes
-/
namespace Verif.Props
open Verif Spec Transaction

theorem compactSize_eq_num {n : Nat} (h : n < 2 ^ 64) : CompactSize n (compactSize n) := by
  unfold CompactSize compactSize
  split_ifs with h1 h2 h3
  · exact Or.inl ⟨h1, rfl⟩
  · exact Or.inr (Or.inl ⟨h2, rfl⟩)
  · exact Or.inr (Or.inr (Or.inl ⟨h3, rfl⟩))
  · exact Or.inr (Or.inr (Or.inr ⟨h, rfl⟩))

theorem counted_inj {s s' r r' : Bytes} (h : s.length < 2 ^ 64) (h' : s'.length < 2 ^ 64)
    (e : compactSize s.length ++ (s ++ r) = compactSize s'.length ++ (s' ++ r')) : s = s' ∧ r = r' := by
  rw [← varInt_compact _ h, ← varInt_compact _ h'] at e
  obtain ⟨h1, h2⟩ := VarInt_prefix_free e
  have hl : s.length = s'.length := by
    have := congrArg UInt64.toNat h1
    rwa [UInt64.toNat_ofNat', UInt64.toNat_ofNat', Nat.mod_eq_of_lt h, Nat.mod_eq_of_lt h'] at this
  exact List.append_inj h2 hl

theorem flatMap_blocks_inj {α β : Type} (f : α → List β) (n : Nat) (hn : 0 < n) :
    ∀ (xs ys : List α), (∀ x ∈ xs, (f x).length = n) → (∀ y ∈ ys, (f y).length = n) → xs.flatMap f = ys.flatMap f → xs.map f = ys.map f := by
  intro xs
  induction xs with
  | nil =>
    intro ys _ hy h
    cases ys with
    | nil => rfl
    | cons y ys =>
      have := congrArg List.length h
      simp [hy y (by simp)] at this; omega
  | cons x xs ih =>
    intro ys hx hy h
    cases ys with
    | nil =>
      have := congrArg List.length h
      simp [hx x (by simp)] at this; omega
    | cons y ys =>
      rw [List.flatMap_cons, List.flatMap_cons] at h
      obtain ⟨h1, h2⟩ := List.append_inj h (by rw [hx x (by simp), hy y (by simp)])
      rw [List.map_cons, List.map_cons, h1, ih ys (fun a ha => hx a (by simp [ha])) (fun a ha => hy a (by simp [ha])) h2]

theorem outputBytes_prefix_free {o o' : Output} {r r' : Bytes} (h : o.LockingScript.length < 2 ^ 64) (h' : o'.LockingScript.length < 2 ^ 64)
    (e : outputBytes o ++ r = outputBytes o' ++ r') : o = o' ∧ r = r' := by
  unfold outputBytes at e
  simp only [List.append_assoc] at e
  obtain ⟨h1, h2⟩ := leBytes8_inj e
  obtain ⟨h3, h4⟩ := counted_inj h h' h2
  rcases o with ⟨a, b⟩; rcases o' with ⟨c, d⟩
  simp only at h1 h3
  exact ⟨by rw [h1, h3], h4⟩

theorem outputs_inj : ∀ (xs ys : List Output), (∀ x ∈ xs, x.LockingScript.length < 2 ^ 64) → (∀ y ∈ ys, y.LockingScript.length < 2 ^ 64) →
    xs.flatMap outputBytes = ys.flatMap outputBytes → xs = ys := by
  have hpos : ∀ o r, outputBytes o ++ r ≠ [] := by
    intro o r h
    have := congrArg List.length h
    simp [outputBytes] at this
  intro xs
  induction xs with
  | nil =>
    intro ys _ hy h
    cases ys with
    | nil => rfl
    | cons y ys => exact absurd h.symm (by rw [List.flatMap_cons]; exact hpos _ _)
  | cons x xs ih =>
    intro ys hx hy h
    cases ys with
    | nil => exact absurd h (by rw [List.flatMap_cons]; exact hpos _ _)
    | cons y ys =>
      rw [List.flatMap_cons, List.flatMap_cons] at h
      obtain ⟨rfl, h2⟩ := outputBytes_prefix_free (hx x (by simp)) (hy y (by simp)) h
      rw [ih ys (fun a ha => hx a (by simp [ha])) (fun a ha => hy a (by simp [ha])) h2]

theorem outpoint_length {i : Input} (h : IsTxId i.PreviousTxID) : (outpoint i).length = 36 := by
  obtain ⟨hh, hl⟩ := isTxId_iff.mp h
  have := hexDecodeIgnore_length hh
  simp [outpoint]; omega

/-- Equal outpoints mean equal txids up to letter case, and equal indices. -/
theorem outpoint_inj {i j : Input} (hi : IsTxId i.PreviousTxID) (hj : IsTxId j.PreviousTxID) (h : outpoint i = outpoint j) :
    i.PreviousTxID.map lowerChar = j.PreviousTxID.map lowerChar ∧ i.PreviousTxOutIndex = j.PreviousTxOutIndex := by
  obtain ⟨hh, hl⟩ := isTxId_iff.mp hi
  obtain ⟨hh', hl'⟩ := isTxId_iff.mp hj
  have a := hexDecodeIgnore_length hh
  have b := hexDecodeIgnore_length hh'
  unfold outpoint at h
  obtain ⟨h1, h2⟩ := List.append_inj h (by simp; omega)
  rw [← hexEncode_decode hh, ← hexEncode_decode hh', List.reverse_injective h1]
  have h3 : leBytes 4 i.PreviousTxOutIndex.toNat ++ [] = leBytes 4 j.PreviousTxOutIndex.toNat ++ [] := by rw [h2]
  exact ⟨rfl, (leBytes4_inj h3).1⟩

/-- What two signature hashes being equal must mean. -/
structure Binds (flag flag' : UInt8) (idx idx' : Nat) (tx tx' : Transaction) (inp inp' : Input) : Prop where
  sameFlag : flag = flag'
  version : tx.Version = tx'.Version
  locktime : tx.Locktime = tx'.Locktime
  txid : inp.PreviousTxID.map lowerChar = inp'.PreviousTxID.map lowerChar
  outIndex : inp.PreviousTxOutIndex = inp'.PreviousTxOutIndex
  script : inp.PreviousTxScript = inp'.PreviousTxScript
  satoshis : inp.PreviousTxSatoshis = inp'.PreviousTxSatoshis
  sequence : inp.SequenceNumber = inp'.SequenceNumber
  prevouts : anyoneCanPay flag = false →
    tx.Inputs.map (fun i => (i.PreviousTxID.map lowerChar, i.PreviousTxOutIndex)) = tx'.Inputs.map (fun i => (i.PreviousTxID.map lowerChar, i.PreviousTxOutIndex))
  sequences : anyoneCanPay flag = false → isNone flag = false → isSingle flag = false → tx.Inputs.map (·.SequenceNumber) = tx'.Inputs.map (·.SequenceNumber)
  outputs : isNone flag = false → isSingle flag = false → tx.Outputs = tx'.Outputs
  single : isSingle flag = true → tx.Outputs[idx]? = tx'.Outputs[idx']?

/-- Equal hashes of two preimages: the same fields, or an explicit collision. -/
theorem preimage_binds (H : HashFns) (tx tx' : Transaction) (ho : ∀ o ∈ tx.Outputs, o.LockingScript.length < 2 ^ 64) (ho' : ∀ o ∈ tx'.Outputs, o.LockingScript.length < 2 ^ 64)
    (ht : ∀ i ∈ tx.Inputs, IsTxId i.PreviousTxID) (ht' : ∀ i ∈ tx'.Inputs, IsTxId i.PreviousTxID)
    (idx idx' : Nat) (flag flag' : UInt8) (inp inp' : Input) (code code' : Bytes) (hit : IsTxId inp.PreviousTxID) (hit' : IsTxId inp'.PreviousTxID)
    (hcl : code.length < 2 ^ 64) (hcl' : code'.length < 2 ^ 64)
    (h : H.sha256 (H.sha256 (preimage (fun b => H.sha256 (H.sha256 b)) tx idx inp code flag)) = H.sha256 (H.sha256 (preimage (fun b => H.sha256 (H.sha256 b)) tx' idx' inp' code' flag'))) :
    (code = code' ∧ (inp.PreviousTxScript = inp'.PreviousTxScript → Binds flag flag' idx idx' tx tx' inp inp')) ∨
    Collision (fun b => H.sha256 (H.sha256 b)) (hashedStrings (fun b => H.sha256 (H.sha256 b)) tx idx inp code flag)
      (hashedStrings (fun b => H.sha256 (H.sha256 b)) tx' idx' inp' code' flag') := by
  by_contra hcon
  rw [not_or] at hcon
  obtain ⟨hnb, hnc⟩ := hcon
  -- no collision among the hashed strings
  have inj : ∀ a ∈ hashedStrings (fun b => H.sha256 (H.sha256 b)) tx idx inp code flag,
      ∀ b ∈ hashedStrings (fun b => H.sha256 (H.sha256 b)) tx' idx' inp' code' flag', H.sha256 (H.sha256 a) = H.sha256 (H.sha256 b) → a = b := by
    intro a ha b hb e
    by_contra hab
    exact hnc (Or.inl ⟨a, ha, b, hb, hab, e⟩)
  have nz : ∀ a, (a ∈ hashedStrings (fun b => H.sha256 (H.sha256 b)) tx idx inp code flag ∨
      a ∈ hashedStrings (fun b => H.sha256 (H.sha256 b)) tx' idx' inp' code' flag') → H.sha256 (H.sha256 a) ≠ zero32 :=
    fun a ha e => hnc (Or.inr ⟨a, ha, e⟩)
  have hp := inj _ (by simp [hashedStrings]) _ (by simp [hashedStrings]) h
  apply hnb
  unfold preimage at hp
  simp only [List.append_assoc] at hp
  obtain ⟨evers, hp⟩ := leBytes4_inj hp
  have l32 : ∀ (c : Bool) (x : Bytes), (if c then zero32 else H.sha256 (H.sha256 x)).length = 32 := by
    intro c x; cases c <;> simp [zero32, H.sha256_length]
  obtain ⟨eprev, hp⟩ := List.append_inj hp (by rw [l32, l32])
  obtain ⟨eseq, hp⟩ := List.append_inj hp (by rw [l32, l32])
  obtain ⟨eout, hp⟩ := List.append_inj hp (by rw [outpoint_length hit, outpoint_length hit'])
  obtain ⟨ecode, hp⟩ := counted_inj hcl hcl' hp
  obtain ⟨esat, hp⟩ := leBytes8_inj hp
  obtain ⟨eseqn, hp⟩ := leBytes4_inj hp
  have l32' : ∀ (x : Option Bytes), (match x with | some s => H.sha256 (H.sha256 s) | none => zero32).length = 32 := by
    intro x; cases x <;> simp [zero32, H.sha256_length]
  obtain ⟨eouts, hp⟩ := List.append_inj hp ((l32' _).trans (l32' _).symm)
  obtain ⟨elock, hp⟩ := leBytes4_inj hp
  have eflag : flag = flag' := by
    have := leBytes_inj (by have := flag.toNat_lt; omega) (by have := flag'.toNat_lt; omega) hp
    exact UInt8.toNat_inj.mp this
  subst eflag
  obtain ⟨etxid, eidx⟩ := outpoint_inj hit hit' eout
  have eoutsS : outputsString tx idx flag = outputsString tx' idx' flag := by
    rcases h1 : outputsString tx idx flag with _ | s <;> rcases h2 : outputsString tx' idx' flag with _ | s' <;> rw [h1, h2] at eouts
    · exact absurd eouts.symm (nz s' (Or.inr (by simp [hashedStrings, h2])))
    · exact absurd eouts (nz s (Or.inl (by simp [hashedStrings, h1])))
    · rw [inj s (by simp [hashedStrings, h1]) s' (by simp [hashedStrings, h2]) eouts]
  refine ⟨ecode, fun hsc => ⟨rfl, evers, elock, etxid, eidx, hsc, esat, eseqn, ?_, ?_, ?_, ?_⟩⟩
  · intro ha
    rw [ha] at eprev
    have e := inj (prevoutsString tx) (by simp [hashedStrings]) (prevoutsString tx') (by simp [hashedStrings]) (by simpa using eprev)
    have hmap := flatMap_blocks_inj outpoint 36 (by omega) _ _ (fun x hx => outpoint_length (ht x hx)) (fun x hx => outpoint_length (ht' x hx)) e
    have hlen : tx.Inputs.length = tx'.Inputs.length := by simpa using congrArg List.length hmap
    apply List.ext_getElem (by simpa using hlen)
    intro n h1 h2
    simp only [List.length_map] at h1 h2
    have hn := congrArg (·[n]?) hmap
    simp only [List.getElem?_map, List.getElem?_eq_getElem h1, List.getElem?_eq_getElem h2, Option.map_some, Option.some.injEq] at hn
    obtain ⟨a, b⟩ := outpoint_inj (ht _ (List.getElem_mem h1)) (ht' _ (List.getElem_mem h2)) hn
    simp only [List.getElem_map, a, b]
  · intro h1 h2 h3
    rw [h1, h2, h3] at eseq
    have e := inj (sequenceString tx) (by simp [hashedStrings]) (sequenceString tx') (by simp [hashedStrings]) (by simpa using eseq)
    have hmap := flatMap_blocks_inj (fun i : Input => leBytes 4 i.SequenceNumber.toNat) 4 (by omega) _ _ (by simp) (by simp) e
    have hlen : tx.Inputs.length = tx'.Inputs.length := by simpa using congrArg List.length hmap
    apply List.ext_getElem (by simpa using hlen)
    intro n h1 h2
    simp only [List.length_map] at h1 h2
    have hn := congrArg (·[n]?) hmap
    simp only [List.getElem?_map, List.getElem?_eq_getElem h1, List.getElem?_eq_getElem h2, Option.map_some, Option.some.injEq] at hn
    simp only [List.getElem_map]
    exact putUint32_inj hn
  · intro h2 h3
    unfold outputsString at eoutsS
    rw [h2, h3] at eoutsS
    simp only [Bool.false_eq_true, if_false, Option.some.injEq] at eoutsS
    exact outputs_inj _ _ ho ho' eoutsS
  · intro h3
    have h2 : isNone flag = false := by
      unfold isNone isSingle at *; simp at h3 ⊢; omega
    unfold outputsString at eoutsS
    rw [h2, h3] at eoutsS
    simp only [Bool.false_eq_true, if_false, if_true] at eoutsS
    rcases h4 : tx.Outputs[idx]? with _ | o <;> rcases h5 : tx'.Outputs[idx']? with _ | o' <;> rw [h4, h5] at eoutsS
    · simp at eoutsS
    · simp at eoutsS
    · simp only [Option.map_some, Option.some.injEq] at eoutsS
      have e : outputBytes o ++ [] = outputBytes o' ++ [] := by rw [eoutsS]
      rw [(outputBytes_prefix_free (ho _ (List.mem_of_getElem? h4)) (ho' _ (List.mem_of_getElem? h5)) e).1]

/-- C45: two equal signature hashes (of any two transactions, indices and flags) come from the same flag, version, locktime, spent outpoint, script, amount and
sequence, and, as the flag says, the same outpoints, sequences and outputs, unless the strings hashed on the way contain an explicit collision. -/
theorem C45_binds (H : HashFns) (tx tx' : Transaction) (hs : Sized tx) (hs' : Sized tx')
    (ht : ∀ i ∈ tx.Inputs, IsTxId i.PreviousTxID) (ht' : ∀ i ∈ tx'.Inputs, IsTxId i.PreviousTxID)
    (idx idx' : UInt32) (flag flag' : UInt8) (inp inp' : Input) (code code' : Bytes)
    (hi : tx.Inputs[idx.toNat]? = some inp) (hi' : tx'.Inputs[idx'.toNat]? = some inp')
    (hc : inp.PreviousTxScript = some code) (hc' : inp'.PreviousTxScript = some code')
    (h : tx.GetInputSignatureHash H idx flag = tx'.GetInputSignatureHash H idx' flag') :
    Binds flag flag' idx.toNat idx'.toNat tx tx' inp inp' ∨
    Collision (fun b => H.sha256 (H.sha256 b)) (hashedStrings (fun b => H.sha256 (H.sha256 b)) tx idx.toNat inp code flag)
      (hashedStrings (fun b => H.sha256 (H.sha256 b)) tx' idx'.toNat inp' code' flag') := by
  have hm := List.mem_of_getElem? hi
  have hm' := List.mem_of_getElem? hi'
  have hne : ∀ i : Input, IsTxId i.PreviousTxID → i.PreviousTxID ≠ [] := by
    intro i h e
    have := h.1
    simp [e] at this
  rw [C43_digest H tx hs idx flag inp code hi (hne _ (ht _ hm)) hc, C43_digest H tx' hs' idx' flag' inp' code' hi' (hne _ (ht' _ hm')) hc'] at h
  injection h with h
  have h := List.reverse_injective h
  rcases preimage_binds H tx tx' hs.2.2.1 hs'.2.2.1 ht ht' idx.toNat idx'.toNat flag flag' inp inp' code code' (ht _ hm) (ht' _ hm') (hs.2.2.2 _ hm _ hc) (hs'.2.2.2 _ hm' _ hc') h with ⟨rfl, hb⟩ | hb
  · exact .inl (hb (by rw [hc, hc']))
  · exact .inr hb

/-- The hypotheses of `C45_binds` are met by a concrete pair that really binds. -/
example : Binds 0x41 0x41 1 1 exSpend exSpend (exSpend.Inputs.getD 1 Input.New) (exSpend.Inputs.getD 1 Input.New) :=
  ⟨rfl, rfl, rfl, rfl, rfl, rfl, rfl, rfl, fun _ => rfl, fun _ _ _ => rfl, fun _ _ => rfl, fun _ => rfl⟩

example : ∀ i ∈ exSpend.Inputs, IsTxId i.PreviousTxID := by decide +kernel

/-! ## Ids that are not 64 digits long -/

/-- Ids of 62 and 66 digits; `From` takes them. -/
def exShifted : Transaction :=
  { Version := 1, Locktime := 0, Outputs := [⟨5, [0x6a]⟩],
    Inputs := [⟨List.replicate 62 49, 0x04030201, 90, some [0x02, 0x51, 0x52], none, 0xffffffff⟩, ⟨List.replicate 64 50 ++ [48, 51], 7, 10, some [0x51], none, 0xffffffff⟩] }

/-- The transaction the first input's signature is good for: another outpoint, another script. -/
def exShiftedTo : Transaction :=
  { Version := 1, Locktime := 0, Outputs := [⟨5, [0x6a]⟩],
    Inputs := [⟨[48, 49] ++ List.replicate 62 49, 0x03040302, 90, some [0x51, 0x52], none, 0xffffffff⟩, ⟨List.replicate 64 50, 7, 10, some [0x51], none, 0xffffffff⟩] }

/-- C45, deviation: nothing checks that the ids of the inputs have 64 digits. With ids of other lengths the preimage can be read in two ways: `exShifted` is built with `From`, and for every
flag and every hash functions its first input has the signature hash of the first input of another transaction, with well-formed ids, that spends another output, with another script. -/
theorem C45_violated :
    (((Transaction.New.From (List.replicate 62 49) 0x04030201 b!"025152" 90).bind fun t => t.From (List.replicate 64 50 ++ [48, 51]) 7 b!"51" 10).bind fun t =>
      .ok (t.AddOutput ⟨5, [0x6a]⟩)) = .ok exShifted ∧
    (∀ i ∈ exShiftedTo.Inputs, IsTxId i.PreviousTxID) ∧ Sized exShifted ∧ Sized exShiftedTo ∧
    (exShifted.Inputs[0]?).map outpoint ≠ (exShiftedTo.Inputs[0]?).map outpoint ∧ (exShifted.Inputs[0]?).map (·.PreviousTxScript) ≠ (exShiftedTo.Inputs[0]?).map (·.PreviousTxScript) ∧
    ∀ (H : HashFns) (flag : UInt8), exShifted.GetInputSignatureHash H 0 flag = exShiftedTo.GetInputSignatureHash H 0 flag := by
  have s1 : Sized exShifted := by refine ⟨by decide, by decide, ?_, ?_⟩ <;> decide +kernel
  have s2 : Sized exShiftedTo := by refine ⟨by decide, by decide, ?_, ?_⟩ <;> decide +kernel
  refine ⟨by decide +kernel, by decide +kernel, s1, s2, by decide +kernel, by decide +kernel, fun H flag => ?_⟩
  rw [C43_digest H exShifted s1 0 flag _ _ rfl (by decide +kernel) rfl, C43_digest H exShiftedTo s2 0 flag _ _ rfl (by decide +kernel) rfl]
  congr 4
  have e1 : prevoutsString exShifted = prevoutsString exShiftedTo := by decide +kernel
  have e2 : sequenceString exShifted = sequenceString exShiftedTo := by decide +kernel
  have e3 : outputsString exShifted 0 flag = outputsString exShiftedTo 0 flag := rfl
  unfold preimage
  rw [e1, e2, show (0 : UInt32).toNat = 0 from rfl, e3]
  have e4 : ∀ r : Bytes, outpoint ⟨List.replicate 62 49, 67305985, 90, some [2, 81, 82], none, 4294967295⟩ ++ (compactSize [(2 : UInt8), 81, 82].length ++ ([2, 81, 82] ++ r)) =
      outpoint ⟨[48, 49] ++ List.replicate 62 49, 50594562, 90, some [81, 82], none, 4294967295⟩ ++ (compactSize [(81 : UInt8), 82].length ++ ([81, 82] ++ r)) := by
    intro r
    have e : outpoint ⟨List.replicate 62 49, 67305985, 90, some [2, 81, 82], none, 4294967295⟩ ++ (compactSize [(2 : UInt8), 81, 82].length ++ [2, 81, 82]) =
      outpoint ⟨[48, 49] ++ List.replicate 62 49, 50594562, 90, some [81, 82], none, 4294967295⟩ ++ (compactSize [(81 : UInt8), 82].length ++ [81, 82]) := by decide +kernel
    have := congrArg (· ++ r) e
    simpa only [List.append_assoc] using this
  simp only [List.append_assoc]
  rw [e4]
  rfl

end Verif.Props
