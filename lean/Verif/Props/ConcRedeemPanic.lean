import Verif.Props.ConcRedeemAll
import Verif.Props.RedeemConcSafe
/-!
# C124: when asking for a redeem script while others add keys can panic
-/
namespace Verif.Props
open Verif Verif.Spec
open Verif.Redeem (SortAlg)
open Verif.Build (Pool Loc Access)
open Verif.Obj (RefSlice)

theorem cstep_none_iff (alg : SortAlg) (m : Int) (p : Pool Bytes) (c : Keys.CPC alg.St) :
    Keys.cstep alg m p c = none ↔ ∃ h pc, c = .sort h pc ∧ ReadsBeyond alg (p.elems h).length pc := by
  cases c with
  | sort h pc =>
    simp only [Keys.cstep]
    split
    · rename_i hs
      refine ⟨fun h => by simp at h, ?_⟩
      rintro ⟨h', pc', e, hr⟩
      obtain ⟨rfl, rfl⟩ := Keys.CPC.sort.inj e
      cases pc <;> simp [Keys.stopped] at hs
      obtain ⟨i, j, ho, -⟩ := hr
      rw [hs] at ho
      simp at ho
    · have hi := pcStep_panic_iff alg m (p.elems h) pc
      rcases hp : Redeem.pcStep alg m (p.elems h) pc with ⟨b, pc', acc⟩ | e | _
      · rw [hp] at hi
        simp only [reduceCtorEq, false_iff]
        rintro ⟨h', pc', e, hr⟩
        obtain ⟨rfl, rfl⟩ := Keys.CPC.sort.inj e
        exact hi.mpr hr _ rfl
      · rw [hp] at hi
        exact ⟨fun _ => ⟨h, pc, rfl, hi.mp fun r => by simp⟩, fun _ => rfl⟩
      · rw [hp] at hi
        exact ⟨fun _ => ⟨h, pc, rfl, hi.mp fun r => by simp⟩, fun _ => rfl⟩
  | walk h acc =>
    simp only [Keys.cstep]
    split <;> simp
  | _ => simp [Keys.cstep]

theorem keys_threads_step (alg : SortAlg) (m : Int) (g : Nat → Nat) (s : Keys.Sys alg) (t : Nat) : (Keys.step alg m g s t).app.threads.length = s.app.threads.length := by
  unfold Keys.step
  split
  · rfl
  · split
    · simp only [Build.step]
      split <;> simp
    · split
      · rfl
      · split <;> rfl

theorem keys_threads_run (alg : SortAlg) (m : Int) (g : Nat → Nat) : ∀ (sch : List Nat) (s : Keys.Sys alg), (Keys.run alg m g s sch).app.threads.length = s.app.threads.length
  | [], _ => rfl
  | t :: sch, s => by
    show (Keys.run alg m g (Keys.step alg m g s t) sch).app.threads.length = _
    rw [keys_threads_run alg m g sch, keys_threads_step]

theorem keys_crashed_iff (alg : SortAlg) (m : Int) (g : Nat → Nat) (s : Keys.Sys alg) (t : Nat) :
    (Keys.step alg m g s t).crashed = true ↔ s.crashed = true ∨
      ∃ i h pc, t = s.app.threads.length + i ∧ s.calls[i]? = some (.sort h pc) ∧ ReadsBeyond alg ((s.app.pool 0).elems h).length pc := by
  unfold Keys.step
  split
  · rename_i hc; simp [hc]
  · rename_i hc
    split
    · rename_i ht
      simp only [hc, Bool.false_eq_true, false_or, false_iff]
      rintro ⟨i, h, pc, rfl, -⟩
      omega
    · rename_i ht
      split
      · rename_i hn
        simp only [hc, Bool.false_eq_true, false_or, false_iff]
        rintro ⟨i, h, pc, rfl, h1, -⟩
        rw [Nat.add_sub_cancel_left] at hn
        rw [hn] at h1
        simp at h1
      · rename_i c hs
        have hi := cstep_none_iff alg m (s.app.pool 0) c
        have back : (∃ i h pc, t = s.app.threads.length + i ∧ s.calls[i]? = some (.sort h pc) ∧ ReadsBeyond alg ((s.app.pool 0).elems h).length pc) ↔
            ∃ h pc, c = .sort h pc ∧ ReadsBeyond alg ((s.app.pool 0).elems h).length pc := by
          constructor
          · rintro ⟨i, h, pc, rfl, h1, h2⟩
            rw [Nat.add_sub_cancel_left, h1, Option.some.injEq] at hs
            exact ⟨h, pc, hs.symm, h2⟩
          · rintro ⟨h, pc, rfl, h2⟩
            exact ⟨t - s.app.threads.length, h, pc, by omega, hs, h2⟩
        rw [back, ← hi]
        split
        · rename_i hn
          simp [hn]
        · rename_i r hr
          simp [hc, hr]

/-- C124: the program ends with a panic exactly when some call makes a step in which the sort reads an element outside of the keys that it was given; adding a key never panics. -/
theorem C124_panic_iff (alg : SortAlg) (m : Int) (g : Nat → Nat) (p : Pool Bytes) (added : List Bytes) (n : Nat) (sch : List Nat) :
    (Keys.run alg m g (Keys.start alg p added n) sch).crashed = true ↔
      ∃ before i after h pc, sch = before ++ (added.length + i) :: after ∧ (Keys.run alg m g (Keys.start alg p added n) before).calls[i]? = some (.sort h pc) ∧
        ReadsBeyond alg (((Keys.run alg m g (Keys.start alg p added n) before).app.pool 0).elems h).length pc := by
  have hlen : ∀ l, (Keys.run alg m g (Keys.start alg p added n) l).app.threads.length = added.length := fun l => by
    rw [keys_threads_run]; simp [Keys.start, Build.start]
  induction sch using List.reverseRecOn with
  | nil => simp [Keys.run, Keys.start]
  | append_singleton l t ih =>
    have e : Keys.run alg m g (Keys.start alg p added n) (l ++ [t]) = Keys.step alg m g (Keys.run alg m g (Keys.start alg p added n) l) t := by simp [Keys.run]
    rw [e, keys_crashed_iff, hlen]
    refine Iff.trans (or_congr ih Iff.rfl) ?_
    constructor
    · rintro (⟨b, i, a, h, pc, h1, h2, h3⟩ | ⟨i, h, pc, h1, h2, h3⟩)
      · exact ⟨b, i, a ++ [t], h, pc, by rw [h1]; simp, h2, h3⟩
      · exact ⟨l, i, [], h, pc, by rw [h1], h2, h3⟩
    · rintro ⟨b, i, a, h, pc, h1, h2, h3⟩
      rcases List.eq_nil_or_concat a with rfl | ⟨a', x, rfl⟩
      · obtain ⟨h4, h5⟩ := List.append_inj' h1 rfl
        rw [List.cons.injEq] at h5
        rw [h4, h5.1]
        exact .inr ⟨i, h, pc, rfl, h2, h3⟩
      · left
        refine ⟨b, i, a', h, pc, ?_, h2, h3⟩
        rw [List.concat_eq_append, show b ++ (added.length + i) :: (a' ++ [x]) = (b ++ (added.length + i) :: a') ++ [x] by simp] at h1
        exact (List.append_inj' h1 rfl).1

/-- non-vacuity: with a sort that leaves the array a call does end the program -/
example : ∃ before i after h pc, [1, 1] = before ++ (1 + i) :: after ∧ (Keys.run unguarded 2 (fun _ => 0) (Keys.start unguarded exKeys [[1]] 1) before).calls[i]? = some (.sort h pc) ∧
    ReadsBeyond unguarded (((Keys.run unguarded 2 (fun _ => 0) (Keys.start unguarded exKeys [[1]] 1) before).app.pool 0).elems h).length pc :=
  (C124_panic_iff unguarded 2 (fun _ => 0) exKeys [[1]] 1 [1, 1]).mp (by decide +kernel)

end Verif.Props
