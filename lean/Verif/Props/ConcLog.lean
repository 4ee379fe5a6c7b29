import Verif.Spec.ConcLog
import Verif.Lemmas.Heap
import Verif.Model.ConcDecrypt
import Verif.Model.ConcMerkle
import Verif.Model.ConcMix
import Verif.Model.ConcRedeem
import Verif.Model.ConcScriptRead
/-!
# C92, C105, C118, C119, C122, C124, C126, C127: the records of accesses miss none

The claims about data races speak about the accesses that the model records. Here: a step of a goroutine changes no place of shared memory without a recorded write to it by that goroutine, and what the goroutine does next depends on
no place (that was there before) of which no read is recorded.
-/
namespace Verif.Props
open Verif Verif.Spec

/-! ## One transaction or redeem script -/

section Build
open Verif.Build
variable {α : Type} [Inhabited α]

/-- C105: a step that changes what is at a place is a recorded write to it. (Places in arrays made by the step are nobody else's yet.) -/
theorem C105_writes_recorded (g : Nat → Nat) (s : Build.Sys α) (t : Nat) : ∃ new, (Build.step g s t).log = s.log ++ new ∧ (∀ a ∈ new, a.by_ = t) ∧
    ∀ loc, shownAt s.pool loc ≠ none → shownAt (Build.step g s t).pool loc ≠ shownAt s.pool loc → ⟨t, true, loc⟩ ∈ new := by
  unfold Build.step
  cases hth : s.threads[t]? with
  | none => exact ⟨[], by simp, by simp, fun loc _ h => absurd rfl h⟩
  | some th =>
    refine ⟨_, rfl, by intro a ha; obtain ⟨x, -, rfl⟩ := List.mem_map.1 ha; rfl, fun loc h0 hc => ?_⟩
    obtain ⟨f, e, pc⟩ := th
    have hsame : ∀ q : Build.Pool α, q = s.pool f → ∀ l, shownAt (fun f' => if f' = f then q else s.pool f') l = shownAt s.pool l := by
      rintro q rfl l
      congr 1
      funext f'
      by_cases hf : f' = f <;> simp [hf]
    cases pc with
    | load => exact absurd (hsame _ rfl loc) hc
    | done => exact absurd (hsame _ rfl loc) hc
    | place sl =>
      simp only [Build.pcStep] at hc ⊢
      split_ifs at hc ⊢ with hlt
      · simp only [List.map_cons, List.map_nil, List.mem_singleton, Build.Access.mk.injEq, true_and]
        cases loc with
        | header f' =>
          refine absurd ?_ hc
          by_cases hf : f' = f <;> simp [shownAt, hf]
        | elem f' a i =>
          by_cases hf : f' = f
          · subst hf
            by_contra hne
            refine hc ?_
            simp only [shownAt, if_pos, List.getElem?_set]
            by_cases ha : sl.arr = a
            · subst ha
              have hi : sl.len ≠ i := fun h => hne (by rw [h])
              by_cases hb : sl.arr < (s.pool f').arrays.length
              · simp [hb, hi]
              · simp [hb]
            · simp [ha]
          · exact absurd (by simp [shownAt, hf]) hc
      · exact absurd (hsame _ rfl loc) hc
    | copy sl acc =>
      simp only [Build.pcStep] at hc ⊢
      split_ifs at hc ⊢ with hlt
      · exact absurd (hsame _ rfl loc) hc
      · refine absurd ?_ hc
        cases loc with
        | header f' => by_cases hf : f' = f <;> simp [shownAt, hf]
        | elem f' a i =>
          by_cases hf : f' = f
          · subst hf
            have ha : a < (s.pool f').arrays.length := by
              by_contra hb
              exact h0 (by simp [shownAt, List.getElem?_eq_none (Nat.le_of_not_lt hb)])
            simp [shownAt, List.getElem?_append_left ha]
          · simp [shownAt, hf]
    | store h =>
      simp only [Build.pcStep] at hc ⊢
      simp only [List.map_cons, List.map_nil, List.mem_singleton, Build.Access.mk.injEq, true_and]
      cases loc with
      | header f' =>
        by_cases hf : f' = f
        · rw [hf]
        · exact absurd (by simp [shownAt, hf]) hc
      | elem f' a i => exact absurd (by by_cases hf : f' = f <;> simp [shownAt, hf]) hc

/-- C105: two programs in which goroutine `t` is at the same point, and which agree wherever a step of `t` records a read (and have as many arrays, so that a new array gets the same name): `t` goes on in the same way, and makes the
same accesses. -/
theorem C105_reads_recorded (g : Nat → Nat) (s s' : Build.Sys α) (t : Nat) (ht : s.threads[t]? = s'.threads[t]?) (hn : ∀ f, (s.pool f).arrays.length = (s'.pool f).arrays.length)
    (hl : ∀ loc, (⟨t, false, loc⟩ : Build.Access) ∈ (Build.step g s t).log.drop s.log.length → shownAt s.pool loc = shownAt s'.pool loc) :
    (Build.step g s t).threads[t]? = (Build.step g s' t).threads[t]? ∧ (Build.step g s t).log.drop s.log.length = (Build.step g s' t).log.drop s'.log.length := by
  unfold Build.step at hl ⊢
  rw [← ht]
  cases hth : s.threads[t]? with
  | none => simp [hth, ← ht]
  | some th =>
    have hlt : t < s.threads.length := (List.getElem?_eq_some_iff.1 hth).1
    have hlt' : t < s'.threads.length := (List.getElem?_eq_some_iff.1 (ht ▸ hth)).1
    obtain ⟨f, e, pc⟩ := th
    simp only [hth, List.drop_left] at hl
    simp only [List.drop_left, List.getElem?_set_self hlt, List.getElem?_set_self hlt', Option.some.injEq, Build.Thread.mk.injEq, true_and]
    cases pc with
    | load =>
      have := hl (.header f) (by simp [Build.pcStep])
      simp only [shownAt, Option.some.injEq, Sum.inl.injEq] at this
      simp [Build.pcStep, this]
    | done => simp [Build.pcStep]
    | place sl =>
      simp only [Build.pcStep]
      split_ifs <;> simp
    | copy sl acc =>
      simp only [Build.pcStep] at hl ⊢
      split_ifs at hl ⊢ with hlt
      · have := hl (.elem f sl.arr acc.length) (by simp)
        have hget : ∀ P : Build.Pool α, (P.arrays.getD sl.arr []).getD acc.length default = ((P.arrays[sl.arr]?.bind (·[acc.length]?)).getD default) := by
          intro P
          rw [List.getD_eq_getElem?_getD, List.getD_eq_getElem?_getD]
          cases P.arrays[sl.arr]? <;> simp
        have hinj : Function.Injective (Option.map (Sum.inr : α → Obj.RefSlice ⊕ α)) := Option.map_injective Sum.inr_injective
        simp only [shownAt] at this
        rw [hget, hget, hinj this]
        simp
      · simp [hn f]
    | store h => simp [Build.pcStep]

end Build

/-! ## One script -/

section Script
open Verif.Torn

/-- C118: a step that changes what is at a place is a recorded write to it. -/
theorem C118_writes_recorded (s : Torn.Sys) (t : Nat) : ∃ new, (Torn.step s t).log = s.log ++ new ∧ (∀ a ∈ new, a.by_ = t) ∧
    ∀ loc, scriptAt s.mem s.hdr loc ≠ none → scriptAt (Torn.step s t).mem (Torn.step s t).hdr loc ≠ scriptAt s.mem s.hdr loc → ⟨t, true, loc⟩ ∈ new := by
  unfold Torn.step
  cases hth : s.threads[t]? with
  | none => exact ⟨[], by simp, by simp, fun loc _ h => absurd rfl h⟩
  | some th =>
    refine ⟨_, rfl, by intro a ha; obtain ⟨x, -, rfl⟩ := List.mem_map.1 ha; rfl, fun loc h0 hc => ?_⟩
    obtain ⟨d, k, pc⟩ := th
    have hf : ∀ f, loc = .header f → f = 0 := by
      rintro f rfl
      by_contra h
      simp [scriptAt, h] at h0
    have hf' : ∀ f a i, loc = .elem f a i → f = 0 := by
      rintro f a i rfl
      by_contra h
      simp [scriptAt, h] at h0
    cases pc with
    | load => exact absurd rfl hc
    | done => exact absurd rfl hc
    | place sl =>
      simp only [Torn.pcStep] at hc
      split_ifs at hc <;> exact absurd rfl hc
    | write sl i =>
      simp only [Torn.pcStep] at hc ⊢
      split_ifs at hc ⊢ with hlt
      · simp only [List.map_cons, List.map_nil, List.mem_singleton, Build.Access.mk.injEq, true_and]
        cases loc with
        | header f => exact absurd rfl hc
        | elem f a p =>
          obtain rfl := hf' f a p rfl
          by_contra hne
          refine hc ?_
          simp only [scriptAt, Mem.write, List.getElem?_set, if_true]
          by_cases ha : sl.arr = a
          · subst ha
            have hp : sl.off + sl.len + i ≠ p := fun h => hne (by rw [h])
            by_cases hb : sl.arr < s.mem.length
            · rw [if_pos rfl, if_pos hb]
              have hex : s.mem[sl.arr]? = some (s.mem[sl.arr]) := List.getElem?_eq_getElem hb
              have hpl : p < s.mem[sl.arr].length := by
                by_contra hq
                exact h0 (by simp [scriptAt, hex, List.getElem?_eq_none (Nat.le_of_not_lt hq)])
              simp only [hex, Option.bind_some, Mem.bytes, List.getD_eq_getElem?_getD, Option.getD_some]
              congr 1
              rcases Nat.lt_or_gt_of_ne hp with h | h
              · rw [List.getElem?_append_right (by simp; omega)]
                simp only [List.length_append, List.length_take, List.length_cons, List.length_nil, List.getElem?_drop]
                congr 1
                omega
              · rw [List.append_assoc, List.getElem?_append_left (by simp; omega), List.getElem?_take_of_lt h]
            · simp [hb]
          · simp [ha]
      · exact absurd rfl hc
    | copy sl acc =>
      simp only [Torn.pcStep] at hc
      split_ifs at hc with hlt
      · exact absurd rfl hc
      · refine absurd ?_ hc
        cases loc with
        | header f => rfl
        | elem f a p =>
          have ha : a < s.mem.length := by
            by_contra hb
            exact h0 (by simp [scriptAt, List.getElem?_eq_none (Nat.le_of_not_lt hb)])
          simp [scriptAt, Mem.fresh, Mem.alloc, List.getElem?_append_left ha]
    | store h =>
      simp only [Torn.pcStep] at hc ⊢
      simp only [List.map_cons, List.map_nil, List.mem_singleton, Build.Access.mk.injEq, true_and]
      cases loc with
      | header f => rw [hf f rfl]
      | elem f a p => exact absurd rfl hc

/-- C118: what a goroutine does next depends only on the places of which it records a read. -/
theorem C118_reads_recorded (s s' : Torn.Sys) (t : Nat) (ht : s.threads[t]? = s'.threads[t]?) (hn : s.mem.length = s'.mem.length)
    (hl : ∀ loc, (⟨t, false, loc⟩ : Build.Access) ∈ (Torn.step s t).log.drop s.log.length → scriptAt s.mem s.hdr loc = scriptAt s'.mem s'.hdr loc) :
    (Torn.step s t).threads[t]? = (Torn.step s' t).threads[t]? ∧ (Torn.step s t).log.drop s.log.length = (Torn.step s' t).log.drop s'.log.length := by
  unfold Torn.step at hl ⊢
  rw [← ht]
  cases hth : s.threads[t]? with
  | none => simp [hth, ← ht]
  | some th =>
    have hlt : t < s.threads.length := (List.getElem?_eq_some_iff.1 hth).1
    have hlt' : t < s'.threads.length := (List.getElem?_eq_some_iff.1 (ht ▸ hth)).1
    obtain ⟨d, k, pc⟩ := th
    simp only [hth, List.drop_left] at hl
    simp only [List.drop_left, List.getElem?_set_self hlt, List.getElem?_set_self hlt', Option.some.injEq, Torn.Thread.mk.injEq, true_and]
    cases pc with
    | load =>
      have := hl (.header 0) (by simp [Torn.pcStep])
      simp only [scriptAt, if_true, Option.some.injEq, Sum.inl.injEq] at this
      simp [Torn.pcStep, this]
    | done => simp [Torn.pcStep]
    | place sl =>
      simp only [Torn.pcStep]
      split_ifs <;> simp
    | write sl i =>
      simp only [Torn.pcStep]
      split_ifs <;> simp
    | copy sl acc =>
      simp only [Torn.pcStep] at hl ⊢
      split_ifs at hl ⊢ with hlt
      · have := hl (.elem 0 sl.arr (sl.off + acc.length)) (by simp)
        have hget : ∀ m : Mem, (m.bytes sl.arr).getD (sl.off + acc.length) 0 = ((m[sl.arr]?.bind (·[sl.off + acc.length]?)).getD 0) := by
          intro m
          rw [Mem.bytes, List.getD_eq_getElem?_getD, List.getD_eq_getElem?_getD]
          cases m[sl.arr]? <;> simp
        have hinj : Function.Injective (Option.map (Sum.inr : UInt8 → Hdr ⊕ UInt8)) := Option.map_injective Sum.inr_injective
        simp only [scriptAt, if_true] at this
        rw [hget, hget, hinj this]
        simp
      · simp [Mem.fresh, hn]
    | store h => simp [Torn.pcStep]

end Script

/-! ## One ciphertext -/

/-- C126: a step that changes a byte is a recorded write to it. -/
theorem C126_writes_recorded (E : Bytes → Bytes) (s : Dec.Sys) (t : Nat) : ∃ new, (Dec.step E s t).log = s.log ++ new ∧ (∀ a ∈ new, a.by_ = t) ∧
    ∀ p, (Dec.step E s t).bytes[p]? ≠ s.bytes[p]? → ⟨t, true, p⟩ ∈ new := by
  unfold Dec.step
  cases hth : s.threads[t]? with
  | none => exact ⟨[], by simp, by simp, fun p h => absurd rfl h⟩
  | some pc =>
    refine ⟨_, rfl, by intro a ha; obtain ⟨x, -, rfl⟩ := List.mem_map.1 ha; rfl, fun q hc => ?_⟩
    cases pc with
    | store p ks next i b =>
      simp only [Dec.pcStep] at hc ⊢
      by_contra hne
      refine hc (List.getElem?_set_ne fun h => hne ?_)
      simp [h]
    | _ =>
      simp only [Dec.pcStep] at hc
      first
        | exact absurd rfl hc
        | (split_ifs at hc <;> exact absurd rfl hc)

/-- C126: what a goroutine does next depends only on the bytes of which it records a read (and on the length of the slice). -/
theorem C126_reads_recorded (E : Bytes → Bytes) (s s' : Dec.Sys) (t : Nat) (ht : s.threads[t]? = s'.threads[t]?) (hn : s.bytes.length = s'.bytes.length)
    (hl : ∀ p, (⟨t, false, p⟩ : Dec.Access) ∈ (Dec.step E s t).log.drop s.log.length → s.bytes[p]? = s'.bytes[p]?) :
    (Dec.step E s t).threads[t]? = (Dec.step E s' t).threads[t]? ∧ (Dec.step E s t).log.drop s.log.length = (Dec.step E s' t).log.drop s'.log.length := by
  unfold Dec.step at hl ⊢
  rw [← ht]
  cases hth : s.threads[t]? with
  | none => simp [hth, ← ht]
  | some pc =>
    have hlt : t < s.threads.length := (List.getElem?_eq_some_iff.1 hth).1
    have hlt' : t < s'.threads.length := (List.getElem?_eq_some_iff.1 (ht ▸ hth)).1
    simp only [hth, List.drop_left] at hl
    simp only [List.drop_left, List.getElem?_set_self hlt, List.getElem?_set_self hlt', Option.some.injEq]
    cases pc with
    | begin =>
      simp only [Dec.pcStep, ← hn] at hl ⊢
      split_ifs at hl ⊢ with h
      · simp
      · refine ⟨?_, rfl⟩
        simp only [Dec.PC.block.injEq, true_and]
        apply List.ext_getElem?
        intro i
        rw [List.getElem?_take, List.getElem?_take]
        split_ifs with hi
        · exact hl i (by simp [hi])
        · rfl
    | block p next =>
      simp only [Dec.pcStep, ← hn]
      split_ifs <;> simp
    | save p ks got =>
      simp only [Dec.pcStep, ← hn] at hl ⊢
      split_ifs at hl ⊢ with h
      · have := hl (p + got.length) (by simp)
        simp [List.getD_eq_getElem?_getD, this]
      · simp
    | load p ks next i =>
      simp only [Dec.pcStep] at hl ⊢
      split_ifs at hl ⊢ with h
      · have := hl (p + i) (by simp)
        simp [List.getD_eq_getElem?_getD, this]
      · simp
    | store p ks next i b => simp [Dec.pcStep]
    | read got =>
      simp only [Dec.pcStep, ← hn] at hl ⊢
      split_ifs at hl ⊢ with h
      · have := hl (16 + got.length) (by simp)
        simp [List.getD_eq_getElem?_getD, this]
      · simp
    | done r => simp [Dec.pcStep]

/-! ## One array with coinbase hashes -/

/-- C127: a step that changes a byte is a recorded write to it. -/
theorem C127_writes_recorded (H : HashFns) (s : Mrk.Sys) (t : Nat) : ∃ new, (Mrk.step H s t).log = s.log ++ new ∧ (∀ a ∈ new, a.by_ = t) ∧
    ∀ p, (Mrk.step H s t).mem[p]? ≠ s.mem[p]? → ⟨t, true, p⟩ ∈ new := by
  unfold Mrk.step
  cases hth : s.threads[t]? with
  | none => exact ⟨[], by simp, by simp, fun p h => absurd rfl h⟩
  | some x =>
    obtain ⟨k, pc⟩ := x
    refine ⟨_, rfl, by intro a ha; obtain ⟨x, -, rfl⟩ := List.mem_map.1 ha; rfl, fun q hc => ?_⟩
    cases pc with
    | write i =>
      simp only [Mrk.pcStep] at hc ⊢
      split_ifs at hc ⊢ with h
      · by_contra hne
        refine hc (List.getElem?_set_ne fun h => hne ?_)
        simp [h]
      · exact absurd rfl hc
    | begin =>
      simp only [Mrk.pcStep] at hc
      cases hb : k.branches with
      | nil => rw [hb] at hc; exact absurd rfl hc
      | cons br rest =>
        rw [hb] at hc
        simp only at hc
        split_ifs at hc <;> exact absurd rfl hc
    | _ =>
      simp only [Mrk.pcStep] at hc
      first
        | exact absurd rfl hc
        | (split_ifs at hc <;> exact absurd rfl hc)

/-- C127: what a goroutine does next depends only on the bytes of which it records a read. -/
theorem C127_reads_recorded (H : HashFns) (s s' : Mrk.Sys) (t : Nat) (ht : s.threads[t]? = s'.threads[t]?)
    (hl : ∀ p, (⟨t, false, p⟩ : Mrk.Access) ∈ (Mrk.step H s t).log.drop s.log.length → s.mem[p]? = s'.mem[p]?) :
    (Mrk.step H s t).threads[t]? = (Mrk.step H s' t).threads[t]? ∧ (Mrk.step H s t).log.drop s.log.length = (Mrk.step H s' t).log.drop s'.log.length := by
  unfold Mrk.step at hl ⊢
  rw [← ht]
  cases hth : s.threads[t]? with
  | none => simp [hth, ← ht]
  | some x =>
    have hlt : t < s.threads.length := (List.getElem?_eq_some_iff.1 hth).1
    have hlt' : t < s'.threads.length := (List.getElem?_eq_some_iff.1 (ht ▸ hth)).1
    obtain ⟨k, pc⟩ := x
    simp only [hth, List.drop_left] at hl
    simp only [List.drop_left, List.getElem?_set_self hlt, List.getElem?_set_self hlt', Option.some.injEq, Prod.mk.injEq, true_and]
    cases pc with
    | begin =>
      simp only [Mrk.pcStep]
      cases k.branches <;> simp only
      · simp
      · split_ifs <;> simp
    | write i =>
      simp only [Mrk.pcStep]
      split_ifs <;> simp
    | copy got =>
      simp only [Mrk.pcStep] at hl ⊢
      split_ifs at hl ⊢ with h
      · have := hl (k.off + got.length) (by simp)
        simp [List.getD_eq_getElem?_getD, this]
      · simp
    | hash got =>
      simp only [Mrk.pcStep] at hl ⊢
      split_ifs at hl ⊢ with h
      · have := hl (k.off + got.length) (by simp)
        simp [List.getD_eq_getElem?_getD, this]
      · simp
    | done r => simp [Mrk.pcStep]

/-! ## Calls that look at a transaction while others add to it -/

section Mix
open Verif.Mix
variable {α β : Type} [Inhabited α]

/-- C122: a step of a call that looks changes no place without a recorded write to it. -/
theorem C122_writes_recorded (pool : Nat → Build.Pool α) (pc : Mix.RPC α β) (r : (Nat → Build.Pool α) × Mix.RPC α β × List (Bool × Build.Loc)) (h : Mix.rstep pool pc = some r)
    (loc : Build.Loc) (hc : shownAt r.1 loc ≠ shownAt pool loc) : (true, loc) ∈ r.2.2 := by
  cases pc with
  | at_ p =>
    cases p <;> simp only [Mix.rstep] at h
    case elem f i k =>
      split_ifs at h
      cases h; exact absurd rfl hc
    all_goals first
      | (cases h; exact absurd rfl hc)
      | cases h
  | pick f i hd k => cases h; exact absurd rfl hc
  | walk f hd acc k =>
    simp only [Mix.rstep] at h
    split_ifs at h <;> cases h <;> exact absurd rfl hc
  | hold hs k =>
    cases h
    cases loc with
    | elem f a i =>
      refine absurd ?_ hc
      simp only [shownAt, Mix.restore]
      cases hs.lookup f <;> rfl
    | header f =>
      simp only [shownAt, Mix.restore] at hc
      cases hl : hs.lookup f with
      | none => rw [hl] at hc; exact absurd rfl hc
      | some hd =>
        simp only [List.mem_map, Prod.mk.injEq, Build.Loc.header.injEq, true_and]
        clear hc
        induction hs with
        | nil => simp at hl
        | cons x xs ih =>
          rw [List.lookup_cons] at hl
          split at hl
          · exact ⟨x, List.mem_cons_self, by simp_all⟩
          · obtain ⟨y, hy, e⟩ := ih hl
            exact ⟨y, List.mem_cons_of_mem _ hy, e⟩

/-- C122: what such a call does next depends only on the places of which it records a read. -/
theorem C122_reads_recorded (pool pool' : Nat → Build.Pool α) (pc : Mix.RPC α β) (r : (Nat → Build.Pool α) × Mix.RPC α β × List (Bool × Build.Loc)) (h : Mix.rstep pool pc = some r)
    (hl : ∀ loc, (false, loc) ∈ r.2.2 → shownAt pool loc = shownAt pool' loc) : ∃ r', Mix.rstep pool' pc = some r' ∧ r'.2 = r.2 := by
  have hget : ∀ (P : Build.Pool α) a i, (P.arrays.getD a []).getD i default = ((P.arrays[a]?.bind (·[i]?)).getD default) := by
    intro P a i
    rw [List.getD_eq_getElem?_getD, List.getD_eq_getElem?_getD]
    cases P.arrays[a]? <;> simp
  have hinj : Function.Injective (Option.map (Sum.inr : α → Obj.RefSlice ⊕ α)) := Option.map_injective Sum.inr_injective
  have hhdr : ∀ f, (false, Build.Loc.header f) ∈ r.2.2 → (pool f).hdr = (pool' f).hdr := fun f hm => by
    simpa [shownAt] using hl _ hm
  have helem : ∀ f a i, (false, Build.Loc.elem f a i) ∈ r.2.2 → ((pool f).arrays.getD a []).getD i default = ((pool' f).arrays.getD a []).getD i default := fun f a i hm => by
    have := hl _ hm
    simp only [shownAt] at this
    rw [hget, hget, hinj this]
  cases pc with
  | at_ p =>
    cases p with
    | ret b => cases h; exact ⟨_, rfl, rfl⟩
    | panic => cases h
    | count f k =>
      cases h
      refine ⟨_, rfl, ?_⟩
      simp [hhdr f (by simp)]
    | elem f i k =>
      simp only [Mix.rstep] at h ⊢
      split_ifs at h with hi
      cases h
      have := hhdr f (by simp)
      rw [← this, if_pos hi]
      exact ⟨_, rfl, rfl⟩
    | range f k =>
      cases h
      refine ⟨_, rfl, ?_⟩
      simp [hhdr f (by simp)]
    | assign fs k =>
      cases h
      refine ⟨_, rfl, ?_⟩
      simp only [Prod.mk.injEq, Mix.RPC.hold.injEq, and_true]
      apply List.map_congr_left
      intro f hf
      rw [hhdr f (by simpa using hf)]
  | pick f i hd k =>
    cases h
    refine ⟨_, rfl, ?_⟩
    simp only [Prod.mk.injEq, and_true]
    rw [helem f hd.arr i (by simp)]
  | walk f hd acc k =>
    simp only [Mix.rstep] at h ⊢
    split_ifs at h ⊢ with hi
    · cases h
      refine ⟨_, rfl, ?_⟩
      simp only [Prod.mk.injEq, and_true]
      rw [helem f hd.arr acc.length (by simp)]
    · cases h
      exact ⟨_, rfl, rfl⟩
  | hold hs k => cases h; exact ⟨_, rfl, rfl⟩

end Mix

/-! ## Calls that read a script while others append to it -/

/-- C119: what a reading call does next depends only on the places of which it records a read. (It changes nothing: `RSys.step` gives it no way to.) -/
theorem C119_reads_recorded (twice : Bool) (m m' : Mem) (v v' : Hdr) (pc : Torn.RPC)
    (hl : ∀ loc, (false, loc) ∈ (Torn.readStep twice m v pc).2 → scriptAt m v loc = scriptAt m' v' loc) : Torn.readStep twice m' v' pc = Torn.readStep twice m v pc := by
  cases pc with
  | load =>
    have := hl (.header 0) (by simp [Torn.readStep])
    simp only [scriptAt, if_true, Option.some.injEq, Sum.inl.injEq] at this
    simp [Torn.readStep, this]
  | reload n =>
    have := hl (.header 0) (by simp [Torn.readStep])
    simp only [scriptAt, if_true, Option.some.injEq, Sum.inl.injEq] at this
    simp [Torn.readStep, this]
  | read n h acc =>
    simp only [Torn.readStep] at hl ⊢
    split_ifs at hl ⊢ with hlt
    · have := hl (.elem 0 h.arr (h.off + acc.length)) (by simp)
      have hget : ∀ m : Mem, (m.bytes h.arr).getD (h.off + acc.length) 0 = ((m[h.arr]?.bind (·[h.off + acc.length]?)).getD 0) := by
        intro m
        rw [Mem.bytes, List.getD_eq_getElem?_getD, List.getD_eq_getElem?_getD]
        cases m[h.arr]? <;> simp
      have hinj : Function.Injective (Option.map (Sum.inr : UInt8 → Hdr ⊕ UInt8)) := Option.map_injective Sum.inr_injective
      simp only [scriptAt, if_true] at this
      rw [hget, hget, hinj this]
    · rfl
  | done n b => rfl

/-! ## Goroutines that ask for one redeem script -/

/-- C92: a step of `GetRedeemScript` changes no key without a recorded write to it. -/
theorem C92_writes_recorded (alg : Redeem.SortAlg) (m : Int) (b : List Bytes) (pc : Redeem.PC alg.St) (r : List Bytes × Redeem.PC alg.St × List (Bool × Redeem.Loc)) (h : Redeem.pcStep alg m b pc = .ok r)
    (i : Nat) (hc : r.1[i]? ≠ b[i]?) : (true, .elem i) ∈ r.2.2 := by
  cases pc with
  | swapFirst s k j x y =>
    cases h
    by_contra hne
    refine hc (List.getElem?_set_ne fun e => hne ?_)
    simp [e]
  | swapSecond s k y =>
    cases h
    by_contra hne
    refine hc (List.getElem?_set_ne fun e => hne ?_)
    simp [e]
  | done s => cases h; exact absurd rfl hc
  | build acc =>
    simp only [Redeem.pcStep] at h
    split at h <;> cases h <;> exact absurd rfl hc
  | sorting s =>
    simp only [Redeem.pcStep] at h
    split at h
    · cases h; exact absurd rfl hc
    all_goals
      unfold index at h
      split at h <;> first | (cases h; exact absurd rfl hc) | cases h
  | less s j x =>
    simp only [Redeem.pcStep] at h
    unfold index at h
    split at h <;> first | (cases h; exact absurd rfl hc) | cases h
  | swapRead s k j x =>
    simp only [Redeem.pcStep] at h
    unfold index at h
    split at h <;> first | (cases h; exact absurd rfl hc) | cases h

/-- C92: what the call does next depends only on the keys of which it records a read, and on how many there are. -/
theorem C92_reads_recorded (alg : Redeem.SortAlg) (m : Int) (b b' : List Bytes) (hn : b.length = b'.length) (pc : Redeem.PC alg.St) (r : List Bytes × Redeem.PC alg.St × List (Bool × Redeem.Loc))
    (h : Redeem.pcStep alg m b pc = .ok r) (hl : ∀ i, (false, .elem i) ∈ r.2.2 → b[i]? = b'[i]?) : ∃ r', Redeem.pcStep alg m b' pc = .ok r' ∧ r'.2 = r.2 := by
  have hidx : ∀ {i : Nat} {x : Bytes}, index b i = .ok x → b[i]? = b'[i]? → index b' i = .ok x := by
    intro i x hx e
    unfold index at hx ⊢
    rw [← e]
    exact hx
  have hget : ∀ {γ : Type} {i : Nat} {k : Bytes → Res γ} {v : γ}, (index b i >>= k) = .ok v → ∃ x, index b i = .ok x ∧ k x = .ok v := by
    intro γ i k v h
    unfold index at h ⊢
    split at h <;> simp_all
  cases pc with
  | sorting s =>
    simp only [Redeem.pcStep] at h ⊢
    split at h
    · cases h; exact ⟨_, rfl, rfl⟩
    all_goals
      obtain ⟨x, hx, h⟩ := hget h
      cases h
      rw [hidx hx (hl _ (by simp))]
      exact ⟨_, rfl, rfl⟩
  | less s j x =>
    obtain ⟨y, hy, h⟩ := hget h
    cases h
    simp only [Redeem.pcStep]
    rw [hidx hy (hl _ (by simp))]
    exact ⟨_, rfl, rfl⟩
  | swapRead s i j x =>
    obtain ⟨y, hy, h⟩ := hget h
    cases h
    simp only [Redeem.pcStep]
    rw [hidx hy (hl _ (by simp))]
    exact ⟨_, rfl, rfl⟩
  | swapFirst s i j x y => cases h; exact ⟨_, rfl, rfl⟩
  | swapSecond s i y => cases h; exact ⟨_, rfl, rfl⟩
  | build acc =>
    simp only [Redeem.pcStep] at h ⊢
    split at h
    · next pk hp =>
      cases h
      have := hl acc.length (by simp)
      rw [← this, hp]
      exact ⟨_, rfl, rfl⟩
    · next hp =>
      cases h
      rw [List.getElem?_eq_none (by rw [← hn]; exact List.getElem?_eq_none_iff.1 hp), hn]
      exact ⟨_, rfl, rfl⟩
  | done x => cases h; exact ⟨_, rfl, rfl⟩

theorem redeem_length {alg : Redeem.SortAlg} {m : Int} {b : List Bytes} {pc : Redeem.PC alg.St} {r : List Bytes × Redeem.PC alg.St × List (Bool × Redeem.Loc)}
    (h : Redeem.pcStep alg m b pc = .ok r) : r.1.length = b.length := by
  have hget : ∀ {γ : Type} {i : Nat} {k : Bytes → Res γ} {v : γ}, (index b i >>= k) = .ok v → ∃ x, index b i = .ok x ∧ k x = .ok v := by
    intro γ i k v h
    unfold index at h ⊢
    split at h <;> simp_all
  cases pc with
  | sorting s =>
    simp only [Redeem.pcStep] at h
    split at h
    · cases h; rfl
    all_goals
      obtain ⟨x, -, h⟩ := hget h
      cases h; rfl
  | less s j x =>
    obtain ⟨y, -, h⟩ := hget h
    cases h; rfl
  | swapRead s i j x =>
    obtain ⟨y, -, h⟩ := hget h
    cases h; rfl
  | swapFirst s i j x y => cases h; simp
  | swapSecond s i y => cases h; simp
  | build acc =>
    simp only [Redeem.pcStep] at h
    split at h <;> cases h <;> rfl
  | done x => cases h; rfl

/-! ## Goroutines that ask for a redeem script while others add keys -/

/-- C124: a step of a call that asks for the script changes no place without a recorded write to it. -/
theorem C124_writes_recorded (alg : Redeem.SortAlg) (m : Int) (p : Build.Pool Bytes) (pc : Keys.CPC alg.St) (r : Build.Pool Bytes × Keys.CPC alg.St × List (Bool × Build.Loc))
    (h : Keys.cstep alg m p pc = some r) :
    (shownAt (fun _ => r.1) (.header 0) ≠ shownAt (fun _ => p) (.header 0) → (true, .header 0) ∈ r.2.2) ∧
    ∀ a i, shownAt (fun _ => r.1) (.elem 0 a i) ≠ shownAt (fun _ => p) (.elem 0 a i) → (true, .elem 0 a i) ∈ r.2.2 := by
  cases pc with
  | load => cases h; exact ⟨fun c => absurd rfl c, fun _ _ c => absurd rfl c⟩
  | range => cases h; exact ⟨fun c => absurd rfl c, fun _ _ c => absurd rfl c⟩
  | count acc => cases h; exact ⟨fun c => absurd rfl c, fun _ _ c => absurd rfl c⟩
  | done x => cases h; exact ⟨fun c => absurd rfl c, fun _ _ c => absurd rfl c⟩
  | store hd => cases h; exact ⟨fun _ => by simp, fun _ _ c => absurd rfl c⟩
  | walk hd acc =>
    simp only [Keys.cstep] at h
    split_ifs at h <;> cases h <;> exact ⟨fun c => absurd rfl c, fun _ _ c => absurd rfl c⟩
  | sort hd pc =>
    simp only [Keys.cstep] at h
    split_ifs at h with hs
    · cases h; exact ⟨fun c => absurd rfl c, fun _ _ c => absurd rfl c⟩
    · split at h
      · next b pc' acc hp =>
        cases h
        refine ⟨fun c => absurd rfl c, fun a i c => ?_⟩
        by_contra hne
        refine c ?_
        simp only [shownAt, Keys.put, List.getElem?_set]
        by_cases ha : hd.arr = a
        · subst ha
          by_cases hb : hd.arr < p.arrays.length
          · have hex : p.arrays[hd.arr]? = some (p.arrays[hd.arr]) := List.getElem?_eq_getElem hb
            rw [if_pos rfl, if_pos hb, hex]
            simp only [Option.bind_some]
            congr 1
            have hlen : b.length = (p.elems hd).length := redeem_length hp
            have hle : (p.elems hd).length = min hd.len p.arrays[hd.arr].length := by simp [Build.Pool.elems, List.getD_eq_getElem?_getD, hex]
            have hD : p.arrays.getD hd.arr [] = p.arrays[hd.arr] := by simp [List.getD_eq_getElem?_getD, hex]
            by_cases hi : i < b.length
            · rw [List.getElem?_append_left hi]
              have hsame : b[i]? = (p.elems hd)[i]? := by
                by_contra hc
                have := C92_writes_recorded alg m (p.elems hd) pc (b, pc', acc) hp i hc
                exact hne (List.mem_map.2 ⟨_, this, rfl⟩)
              rw [hsame, Build.Pool.elems, hD, List.getElem?_take_of_lt (by omega)]
            · rw [List.getElem?_append_right (by omega), hD, List.getElem?_drop]
              congr 1
              omega
          · simp [hb]
        · simp [ha]
      · cases h

/-- C124: what such a call does next depends only on the places of which it records a read (and on how long the arrays are, which does not change). -/
theorem C124_reads_recorded (alg : Redeem.SortAlg) (m : Int) (p p' : Build.Pool Bytes) (hn : ∀ a, (p.arrays.getD a []).length = (p'.arrays.getD a []).length) (pc : Keys.CPC alg.St)
    (r : Build.Pool Bytes × Keys.CPC alg.St × List (Bool × Build.Loc)) (h : Keys.cstep alg m p pc = some r)
    (hl : ∀ loc, (false, loc) ∈ r.2.2 → shownAt (fun _ => p) loc = shownAt (fun _ => p') loc) : ∃ r', Keys.cstep alg m p' pc = some r' ∧ r'.2 = r.2 := by
  have hhdr : ∀ f, (false, Build.Loc.header f) ∈ r.2.2 → p.hdr = p'.hdr := fun f hm => by simpa [shownAt] using hl _ hm
  have hinj : Function.Injective (Option.map (Sum.inr : Bytes → Obj.RefSlice ⊕ Bytes)) := Option.map_injective Sum.inr_injective
  have hat : ∀ (P : Build.Pool Bytes) (a i : Nat), (P.arrays.getD a [])[i]? = P.arrays[a]?.bind (·[i]?) := by
    intro P a i
    rw [List.getD_eq_getElem?_getD]
    cases P.arrays[a]? <;> simp
  have helem : ∀ f a i, (false, Build.Loc.elem f a i) ∈ r.2.2 → (p.arrays.getD a [])[i]? = (p'.arrays.getD a [])[i]? := fun f a i hm => by
    have := hl _ hm
    simp only [shownAt] at this
    rw [hat, hat, hinj this]
  cases pc with
  | load =>
    cases h
    refine ⟨_, rfl, ?_⟩
    simp [hhdr 0 (by simp)]
  | range =>
    cases h
    refine ⟨_, rfl, ?_⟩
    simp [hhdr 0 (by simp)]
  | count acc =>
    cases h
    refine ⟨_, rfl, ?_⟩
    simp [hhdr 0 (by simp)]
  | done x => cases h; exact ⟨_, rfl, rfl⟩
  | store hd => cases h; exact ⟨_, rfl, rfl⟩
  | walk hd acc =>
    simp only [Keys.cstep] at h ⊢
    split_ifs at h ⊢
    · cases h
      refine ⟨_, rfl, ?_⟩
      have := helem 0 hd.arr acc.length (by simp)
      simp only [Prod.mk.injEq, and_true]
      rw [List.getD_eq_getElem?_getD, List.getD_eq_getElem?_getD (l := p.arrays.getD hd.arr []), this]
    · cases h; exact ⟨_, rfl, rfl⟩
  | sort hd pc =>
    simp only [Keys.cstep] at h ⊢
    split_ifs at h ⊢ with hs
    · cases h; exact ⟨_, rfl, rfl⟩
    · split at h
      · next b pc' acc hp =>
        cases h
        obtain ⟨r', hr, e⟩ := C92_reads_recorded alg m (p.elems hd) (p'.elems hd) (by rw [Build.Pool.elems, Build.Pool.elems, List.length_take, List.length_take, hn]) pc _ hp (fun i hi => by
          have := helem 0 hd.arr i (List.mem_map.2 ⟨_, hi, rfl⟩)
          rw [Build.Pool.elems, Build.Pool.elems, List.getElem?_take, List.getElem?_take, this])
        rw [hr]
        obtain ⟨b', pc'', acc'⟩ := r'
        simp only [Prod.mk.injEq] at e
        obtain ⟨rfl, rfl⟩ := e
        exact ⟨_, rfl, rfl⟩
      · cases h

/-! ## Cases -/

/-- Two outputs being added at once: the write of each element and of the header is recorded. -/
example : let s := Build.run (fun n => n) (Build.start (fun _ => ⟨[[20, 0]], ⟨0, 1, 2⟩⟩) [(1, 3), (1, 4)]) [0, 1]
    shownAt s.pool (.elem 1 0 1) = some (.inr 0) ∧ shownAt (Build.step (fun n => n) s 0).pool (.elem 1 0 1) = some (.inr 3) ∧
      (Build.step (fun n => n) s 0).log = s.log ++ [⟨0, true, .elem 1 0 1⟩] := by decide +kernel

/-- A script with room for two more bytes: the byte written behind it. -/
example : let s := Torn.run (Torn.start [[0x51, 0, 0]] ⟨0, 0, 1, 3⟩ [.opcode 0x76 0, .opcode 0xac 0]) [0, 0]
    scriptAt s.mem s.hdr (.elem 0 0 1) = some (.inr 0) ∧ scriptAt (Torn.step s 0).mem (Torn.step s 0).hdr (.elem 0 0 1) = some (.inr 0x76) ∧
      (Torn.step s 0).log = s.log ++ [⟨0, true, .elem 0 0 1⟩] := by decide +kernel

/-- Keys being sorted: the first of the two writes of a swap. -/
example (alg : Redeem.SortAlg) (s : alg.St) : Redeem.pcStep alg 2 [[5], [3]] (.swapFirst s 0 1 [5] [3]) = .ok ([[5], [5]], .swapSecond s 0 [3], [(true, .elem 1)]) ∧
    ([[5], [5]] : List Bytes)[1]? ≠ ([[5], [3]] : List Bytes)[1]? := ⟨rfl, by decide⟩

/-- Two arrays that differ only in a key the step does not read: the same step. -/
example (alg : Redeem.SortAlg) (s : alg.St) : ∃ r', Redeem.pcStep alg 2 [[5], [3], [9]] (.less s 1 [5]) = .ok r' ∧ r'.2 = (.sorting (alg.next s false), [(false, .elem 1)]) :=
  C92_reads_recorded alg 2 [[5], [3], [7]] [[5], [3], [9]] rfl (.less s 1 [5]) ([[5], [3], [7]], .sorting (alg.next s false), [(false, .elem 1)]) rfl (by simp)

/-- A ciphertext of 17 bytes: the byte that is written back. -/
example : let s : Dec.Sys := ⟨List.replicate 17 7, [.store 16 [1] [7] 0 7], []⟩
    s.bytes[16]? = some 7 ∧ (Dec.step (fun x => x) s 0).bytes[16]? = some 6 ∧ (Dec.step (fun x => x) s 0).log = [⟨0, true, 16⟩] := by decide +kernel

/-- `*bt = *signedTx` after an input has been added: the header goes back, and that is a recorded write. -/
example (k : Mix.Prog Nat Nat) : ∃ r, Mix.rstep (fun _ => (⟨[[10, 11]], ⟨0, 2, 2⟩⟩ : Build.Pool Nat)) (.hold [(0, ⟨0, 1, 2⟩)] k) = some r ∧ shownAt r.1 (.header 0) = some (.inl ⟨0, 1, 2⟩) ∧
    shownAt r.1 (.header 0) ≠ shownAt (fun _ => (⟨[[10, 11]], ⟨0, 2, 2⟩⟩ : Build.Pool Nat)) (.header 0) ∧ (true, Build.Loc.header 0) ∈ r.2.2 := by
  refine ⟨_, rfl, rfl, ?_, by simp⟩
  show (some (.inl ⟨0, 1, 2⟩) : Option (Obj.RefSlice ⊕ Nat)) ≠ some (.inl ⟨0, 2, 2⟩)
  decide

end Verif.Props
