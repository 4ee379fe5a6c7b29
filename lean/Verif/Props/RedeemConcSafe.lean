import Verif.Props.RedeemConc
/-!
# C92: goroutines that share a redeem script do not panic, and each of them returns
-/
namespace Verif.Props
open Verif Verif.Redeem Verif.Spec

theorem index_panic_iff {α : Type} {b : List α} {i : Nat} : index b i = .panic ↔ b.length ≤ i := by
  unfold index
  rcases h : b[i]? with _ | x
  · simpa using h
  · have := (List.getElem?_eq_some_iff.mp h).1
    simp; omega

theorem pcStep_panic_iff (alg : SortAlg) (m : Int) (b : List Bytes) (pc : PC alg.St) :
    (∀ r, pcStep alg m b pc ≠ .ok r) ↔ ReadsBeyond alg b.length pc := by
  have key : ∀ {β : Type} (i : Nat) (f : Bytes → β), (∀ r, ((index b i).bind fun x => (.ok (f x) : Res β)) ≠ .ok r) ↔ b.length ≤ i := by
    intro β i f
    constructor
    · intro h
      by_contra hc
      obtain ⟨x, hx⟩ : ∃ x, index b i = .ok x := by
        unfold index
        rw [List.getElem?_eq_getElem (by omega)]
        exact ⟨_, rfl⟩
      exact h (f x) (by rw [hx]; rfl)
    · intro h r
      rw [index_panic_iff.mpr h]
      simp [Res.bind]
  cases pc with
  | sorting s =>
    rcases ho : alg.op s with ⟨i, j⟩ | ⟨i, j⟩ | _
    · have := key i (fun x => (b, PC.less s j x, [(false, Loc.elem i)]))
      simp only [pcStep, ho, ReadsBeyond]
      refine Iff.trans this ?_
      constructor
      · intro h; exact ⟨i, j, Or.inl rfl, h⟩
      · rintro ⟨i', j', h | h, h2⟩
        · cases h; exact h2
        · cases h
    · have := key i (fun x => (b, PC.swapRead s i j x, [(false, Loc.elem i)]))
      simp only [pcStep, ho, ReadsBeyond]
      refine Iff.trans this ?_
      constructor
      · intro h; exact ⟨i, j, Or.inr rfl, h⟩
      · rintro ⟨i', j', h | h, h2⟩
        · cases h
        · cases h; exact h2
    · simp [pcStep, ho, ReadsBeyond]
  | less s j x => exact key j (fun y => (b, PC.sorting (alg.next s (lessBytes x y)), [(false, Loc.elem j)]))
  | swapRead s i j x => exact key j (fun y => (b, PC.swapFirst s i j x y, [(false, Loc.elem j)]))
  | swapFirst s i j x y => simp [pcStep, ReadsBeyond]
  | swapSecond s i y => simp [pcStep, ReadsBeyond]
  | build acc =>
    simp only [pcStep, ReadsBeyond, iff_false]
    rcases b[acc.length]? with _ | pk <;> simp
  | done s => simp [pcStep, ReadsBeyond]

theorem step_crashed_iff (alg : SortAlg) (m : Int) (σ : Sys alg) (t : Nat) :
    (step alg m σ t).crashed = true ↔ σ.crashed = true ∨ ∃ pc, σ.threads[t]? = some pc ∧ ReadsBeyond alg σ.keys.length pc := by
  unfold step
  split_ifs with hc
  · simp [hc]
  · rcases ht : σ.threads[t]? with _ | pc
    · simp
    · dsimp only
      have hi := pcStep_panic_iff alg m σ.keys pc
      rcases hp : pcStep alg m σ.keys pc with ⟨b, pc', acc⟩ | e | _
      · rw [hp] at hi
        simp only [Bool.false_eq_true, false_or, Option.some.injEq, exists_eq_left', hc, false_iff]
        intro h
        exact hi.mpr h _ rfl
      · rw [hp] at hi
        simpa [hc] using hi
      · rw [hp] at hi
        simpa [hc] using hi

/-- C92: the program ends with a panic exactly when some goroutine makes a step that reads an element outside of the array. -/
theorem C92_panic_iff (alg : SortAlg) (m : Int) (keys : List Bytes) (n : Nat) (schedule : List Nat) :
    (run alg m (start alg keys n) schedule).crashed = true ↔
      ∃ before t after pc, schedule = before ++ t :: after ∧ (run alg m (start alg keys n) before).threads[t]? = some pc ∧ ReadsBeyond alg keys.length pc := by
  have hlen : ∀ l, (run alg m (start alg keys n) l).keys.length = keys.length := fun l => (C92_members alg ⟨m, keys, []⟩ n l).1
  induction schedule using List.reverseRecOn with
  | nil =>
    simp [run, start]
  | append_singleton l t ih =>
    have e : run alg m (start alg keys n) (l ++ [t]) = step alg m (run alg m (start alg keys n) l) t := by
      rw [run_append]; rfl
    rw [e, step_crashed_iff, hlen]
    refine Iff.trans (or_congr ih Iff.rfl) ?_
    constructor
    · rintro (⟨b, u, a, pc, h1, h2, h3⟩ | ⟨pc, h1, h2⟩)
      · exact ⟨b, u, a ++ [t], pc, by rw [h1]; simp, h2, h3⟩
      · exact ⟨l, t, [], pc, rfl, h1, h2⟩
    · rintro ⟨b, u, a, pc, h1, h2, h3⟩
      rcases List.eq_nil_or_concat a with rfl | ⟨a', x, rfl⟩
      · obtain ⟨h4, h5⟩ := List.append_inj' h1 rfl
        rw [List.cons.injEq] at h5
        rw [h4, h5.1]
        exact Or.inr ⟨pc, h2, h3⟩
      · left
        have : l ++ [t] = (b ++ u :: a') ++ [x] := by rw [h1]; simp
        obtain ⟨h4, _⟩ := List.append_inj' this rfl
        exact ⟨b, u, a', pc, h4, h2, h3⟩

/-- Where goroutines can be when the algorithm stays inside of an array of `n`. -/
def InsidePC (alg : SortAlg) (n : Nat) : PC alg.St → Prop
  | .sorting s => CanReach alg n s
  | .less s j _ => CanReach alg n s ∧ ∃ i, alg.op s = .less i j
  | .swapRead s i j _ => CanReach alg n s ∧ alg.op s = .swap i j
  | .swapFirst s i j _ _ => CanReach alg n s ∧ alg.op s = .swap i j
  | .swapSecond s i _ => CanReach alg n s ∧ ∃ j, alg.op s = .swap i j
  | _ => True

theorem InsidePC.step {alg : SortAlg} {m : Int} {n : Nat} {b b' : List Bytes} {pc pc' : PC alg.St} {acc : List (Bool × Loc)} (h : InsidePC alg n pc)
    (hs : pcStep alg m b pc = .ok (b', pc', acc)) : InsidePC alg n pc' := by
  unfold pcStep at hs
  cases pc with
  | sorting s =>
    dsimp only at hs
    split at hs
    · cases hs; trivial
    · rename_i i j ho
      obtain ⟨x, hx, hs⟩ := Res.bind_eq_ok.mp hs
      cases hs
      exact ⟨h, i, ho⟩
    · rename_i i j ho
      obtain ⟨x, hx, hs⟩ := Res.bind_eq_ok.mp hs
      cases hs
      exact ⟨h, ho⟩
  | less s j x =>
    obtain ⟨y, hy, hs⟩ := Res.bind_eq_ok.mp hs
    cases hs
    obtain ⟨i, ho⟩ := h.2
    exact CanReach.less _ h.1 ho
  | swapRead s i j x =>
    obtain ⟨y, hy, hs⟩ := Res.bind_eq_ok.mp hs
    cases hs
    exact h
  | swapFirst s i j x y => cases hs; exact ⟨h.1, j, h.2⟩
  | swapSecond s i y =>
    cases hs
    obtain ⟨j, ho⟩ := h.2
    exact CanReach.swap h.1 ho
  | build a =>
    dsimp only at hs
    split at hs <;> cases hs <;> trivial
  | done s => cases hs; trivial

theorem inside_run (alg : SortAlg) (m : Int) (keys : List Bytes) (n : Nat) (schedule : List Nat) :
    ∀ pc ∈ (run alg m (start alg keys n) schedule).threads, InsidePC alg keys.length pc := by
  induction schedule using List.reverseRecOn with
  | nil =>
    intro pc hpc
    rw [List.eq_of_mem_replicate hpc]
    exact CanReach.init
  | append_singleton l t ih =>
    have e : run alg m (start alg keys n) (l ++ [t]) = step alg m (run alg m (start alg keys n) l) t := by
      rw [run_append]; rfl
    rw [e]
    rcases step_cases (m := m) (run alg m (start alg keys n) l) t with ⟨_, h2, _⟩ | ⟨pc, b, pc', acc, ht, hs, e⟩
    · rw [h2]; exact ih
    · rw [e]
      intro p hp
      rcases List.mem_or_eq_of_mem_set hp with h | rfl
      · exact ih p h
      · exact (ih pc (List.mem_of_getElem? ht)).step hs

/-- C92: with an algorithm that stays inside of the array whatever `Less` answers, no schedule of any number of goroutines ends with a panic, whatever the keys. -/
theorem C92_no_panic (alg : SortAlg) (hin : StaysInside alg) (m : Int) (keys : List Bytes) (n : Nat) (schedule : List Nat) :
    (run alg m (start alg keys n) schedule).crashed = false := by
  rw [← Bool.not_eq_true, C92_panic_iff]
  rintro ⟨b, t, a, pc, _, h2, h3⟩
  have hi := inside_run alg m keys n b pc (List.mem_of_getElem? h2)
  cases pc with
  | sorting s =>
    obtain ⟨i, j, ho | ho, hle⟩ := h3
    · have := (hin _ s hi).1 i j ho; omega
    · have := (hin _ s hi).2 i j ho; omega
  | less s j x =>
    obtain ⟨hr, i, ho⟩ := hi
    have := (hin _ s hr).1 i j ho
    simp only [ReadsBeyond] at h3; omega
  | swapRead s i j x =>
    have := (hin _ s hi.1).2 i j hi.2
    simp only [ReadsBeyond] at h3; omega
  | swapFirst | swapSecond | build | done => exact h3

/-- The loop variables of Go's insertion sort. -/
theorem insertion_reach {n : Nat} {s : insertionSort.St} (h : CanReach insertionSort n s) : InsSt.n s = n ∧ 1 ≤ InsSt.j s ∧ InsSt.j s ≤ InsSt.i s := by
  induction h with
  | init => exact ⟨rfl, Nat.le_refl _, Nat.le_refl _⟩
  | @less s i j yes _ ho ih =>
    unfold insertionSort
    dsimp only
    split_ifs <;> simp <;> omega
  | @swap s i j _ ho ih =>
    unfold insertionSort
    dsimp only
    split_ifs <;> simp <;> omega

/-- C92: Go's insertion sort stays inside of the array whatever `Less` answers. -/
theorem C92_insertion_inside : StaysInside insertionSort := by
  intro n s hr
  obtain ⟨h1, h2, h3⟩ := insertion_reach hr
  constructor
  all_goals
    intro i j ho
    simp only [insertionSort] at ho
    split_ifs at ho
    simp only [SortOp.less.injEq, SortOp.swap.injEq] at ho
    omega

/-! ## Each call returns -/

/-- An upper bound for the steps that a goroutine with Go's insertion sort has still to make, whatever the others do. -/
def insLeft (s : InsSt) : Nat := if s.i < s.n then 3 * s.n * s.n - 3 * s.i * s.i - 3 * s.i + 6 * s.j - (if s.swapping then 2 else 0) else 0

/-- The same for every position. -/
def insStepsLeft (n : Nat) : PC InsSt → Nat
  | .sorting s => insLeft s + n + 2
  | .less s _ _ => insLeft s + n + 1
  | .swapRead s _ _ _ => insLeft s + n + 1
  | .swapFirst s _ _ _ _ => insLeft s + n
  | .swapSecond s _ _ => insLeft s + n - 1
  | .build acc => n - acc.length + 1
  | .done _ => 0

theorem insLeft_less {s : InsSt} (yes : Bool) (hi : s.i < s.n) (hs : s.swapping = false) (hj : 1 ≤ s.j) : insLeft (insertionSort.next s yes) + 2 ≤ insLeft s := by
  obtain ⟨n, i, j, sw⟩ := s
  simp only at hi hs hj
  subst hs
  have h1 : (i + 1) * (i + 1) ≤ n * n := Nat.mul_le_mul hi hi
  have h2 : i + 1 < n → (i + 2) * (i + 2) ≤ n * n := fun h => Nat.mul_le_mul h h
  have e5 : (i + 2) * (i + 2) = i * i + 4 * i + 4 := by ring
  have e1 : 3 * n * n = 3 * (n * n) := by ring
  have e2 : 3 * i * i = 3 * (i * i) := by ring
  have e3 : 3 * (i + 1) * (i + 1) = 3 * (i * i) + 6 * i + 3 := by ring
  have e4 : (i + 1) * (i + 1) = i * i + 2 * i + 1 := by ring
  cases yes <;> simp only [insertionSort, insLeft, Bool.false_eq_true, if_false, if_true] <;> split_ifs <;> omega

theorem insLeft_swap {s : InsSt} (hi : s.i < s.n) (hs : s.swapping = true) (hj : 1 ≤ s.j) : insLeft (insertionSort.next s false) + 4 ≤ insLeft s := by
  obtain ⟨n, i, j, sw⟩ := s
  simp only at hi hs hj
  subst hs
  have h1 : (i + 1) * (i + 1) ≤ n * n := Nat.mul_le_mul hi hi
  have h2 : i + 1 < n → (i + 2) * (i + 2) ≤ n * n := fun h => Nat.mul_le_mul h h
  have e5 : (i + 2) * (i + 2) = i * i + 4 * i + 4 := by ring
  have e1 : 3 * n * n = 3 * (n * n) := by ring
  have e2 : 3 * i * i = 3 * (i * i) := by ring
  have e3 : 3 * (i + 1) * (i + 1) = 3 * (i * i) + 6 * i + 3 := by ring
  have e4 : (i + 1) * (i + 1) = i * i + 2 * i + 1 := by ring
  simp only [insertionSort, insLeft, if_true]
  split_ifs <;> simp_all <;> omega

theorem op_less {s : InsSt} {i j : Nat} (h : insertionSort.op s = .less i j) : s.i < s.n ∧ s.swapping = false := by
  simp only [insertionSort] at h
  split_ifs at h with h1 h2
  exact ⟨h1, by simpa using h2⟩

theorem op_swap {s : InsSt} {i j : Nat} (h : insertionSort.op s = .swap i j) : s.i < s.n ∧ s.swapping = true := by
  simp only [insertionSort] at h
  split_ifs at h with h1 h2
  exact ⟨h1, h2⟩

/-- Every step of a goroutine that has not returned brings it nearer to its return, whatever the array holds. -/
theorem insStepsLeft_step {m : Int} {n : Nat} {b b' : List Bytes} {pc pc' : PC insertionSort.St} {acc : List (Bool × Loc)} (hn : b.length = n) (h : InsidePC insertionSort n pc)
    (hd : ∀ s, pc ≠ .done s) (hs : pcStep insertionSort m b pc = .ok (b', pc', acc)) : insStepsLeft n pc' + 1 ≤ insStepsLeft n pc := by
  unfold pcStep at hs
  cases pc with
  | sorting s =>
    dsimp only at hs
    split at hs
    · cases hs
      simp only [insStepsLeft, List.length_nil]
      omega
    · obtain ⟨x, hx, hs⟩ := Res.bind_eq_ok.mp hs
      cases hs
      exact Nat.le_refl _
    · obtain ⟨x, hx, hs⟩ := Res.bind_eq_ok.mp hs
      cases hs
      exact Nat.le_refl _
  | less s j x =>
    obtain ⟨y, hy, hs⟩ := Res.bind_eq_ok.mp hs
    cases hs
    obtain ⟨hr, i, ho⟩ := h
    have := insLeft_less (lessBytes x y) (op_less ho).1 (op_less ho).2 (insertion_reach hr).2.1
    simp only [insStepsLeft]
    omega
  | swapRead s i j x =>
    obtain ⟨y, hy, hs⟩ := Res.bind_eq_ok.mp hs
    cases hs
    exact Nat.le_refl _
  | swapFirst s i j x y =>
    cases hs
    have hr := insertion_reach h.1
    have := insLeft_swap (op_swap h.2).1 (op_swap h.2).2 hr.2.1
    simp only [insStepsLeft]
    omega
  | swapSecond s i y =>
    cases hs
    obtain ⟨hr, j, ho⟩ := h
    have := insLeft_swap (op_swap ho).1 (op_swap ho).2 (insertion_reach hr).2.1
    simp only [insStepsLeft]
    omega
  | build a =>
    dsimp only at hs
    split at hs
    · rename_i pk hg
      cases hs
      have hlt := (List.getElem?_eq_some_iff.mp hg).1
      simp only [insStepsLeft, List.length_append, List.length_singleton]
      omega
    · cases hs
      simp only [insStepsLeft]
      omega
  | done s => exact absurd rfl (hd s)

/-- C92: with Go's insertion sort every call returns after at most `3·k² + k + 2` steps of its own, `k` the number of keys, however the other goroutines interfere. -/
theorem C92_returns (m : Int) (keys : List Bytes) (n t : Nat) (ht : t < n) (schedule : List Nat) (h : 3 * keys.length ^ 2 + keys.length + 2 ≤ schedule.count t) :
    ∃ script, (run insertionSort m (start insertionSort keys n) schedule).threads[t]? = some (.done script) := by
  suffices hs : ∀ schedule : List Nat, ∃ pc, (run insertionSort m (start insertionSort keys n) schedule).threads[t]? = some pc ∧
      ((∃ s, pc = .done s) ∨ insStepsLeft keys.length pc + schedule.count t ≤ 3 * keys.length ^ 2 + keys.length + 2 ∧ 1 ≤ insStepsLeft keys.length pc) by
    obtain ⟨pc, h1, ⟨s, rfl⟩ | h2⟩ := hs schedule
    · exact ⟨s, h1⟩
    · omega
  intro schedule
  clear h
  induction schedule using List.reverseRecOn with
  | nil =>
    refine ⟨.sorting (insertionSort.init keys.length), by simp [run, start, ht], Or.inr ⟨?_, ?_⟩⟩
    · simp only [insStepsLeft, insLeft, insertionSort, List.count_nil]
      have : 3 * keys.length * keys.length = 3 * keys.length ^ 2 := by ring
      have h4 : 1 < keys.length → 2 ^ 2 ≤ keys.length ^ 2 := fun h => Nat.pow_le_pow_left h 2
      split_ifs
      all_goals omega
    · simp only [insStepsLeft]; omega
  | append_singleton l u ih =>
    obtain ⟨pc, h1, h2⟩ := ih
    have e : run insertionSort m (start insertionSort keys n) (l ++ [u]) = step insertionSort m (run insertionSort m (start insertionSort keys n) l) u := by
      rw [run_append]; rfl
    have hok := C92_no_panic insertionSort C92_insertion_inside m keys n l
    have hlen : (run insertionSort m (start insertionSort keys n) l).keys.length = keys.length := (C92_members insertionSort ⟨m, keys, []⟩ n l).1
    have hin := inside_run insertionSort m keys n l
    have hcr := C92_no_panic insertionSort C92_insertion_inside m keys n (l ++ [u])
    rw [e] at hcr ⊢
    generalize run insertionSort m (start insertionSort keys n) l = σ at *
    rcases hu : σ.threads[u]? with _ | pu
    · refine ⟨pc, ?_, ?_⟩
      · unfold step; rw [hok, hu]; exact h1
      · have hne : u ≠ t := by rintro rfl; rw [h1] at hu; cases hu
        simpa [hne] using h2
    · rcases hp : pcStep insertionSort m σ.keys pu with ⟨b, pu', acc⟩ | _ | _
      · rw [step_eq hok hu hp]
        by_cases hut : u = t
        · subst hut
          rw [h1, Option.some.injEq] at hu
          subst hu
          have hlt := (List.getElem?_eq_some_iff.mp h1).1
          refine ⟨pu', by simp [hlt], ?_⟩
          rcases h2 with ⟨s, rfl⟩ | ⟨h2, h3⟩
          · cases hp; exact Or.inl ⟨s, rfl⟩
          · by_cases hd : ∃ s, pu' = .done s
            · exact Or.inl hd
            · right
              have hnd : ∀ s, pc ≠ .done s := by
                rintro s rfl
                exact hd ⟨s, by cases hp; rfl⟩
              have := insStepsLeft_step hlen (hin pc (List.mem_of_getElem? h1)) hnd hp
              refine ⟨by simp; omega, ?_⟩
              cases pu' with
              | done s => exact absurd ⟨s, rfl⟩ hd
              | swapSecond s i y =>
                have hi := (hin pc (List.mem_of_getElem? h1)).step hp
                obtain ⟨hr, j, ho⟩ := hi
                have := insLeft_swap (op_swap ho).1 (op_swap ho).2 (insertion_reach hr).2.1
                simp only [insStepsLeft]; omega
              | swapFirst s i j x y =>
                have hi := (hin pc (List.mem_of_getElem? h1)).step hp
                have := insLeft_swap (op_swap hi.2).1 (op_swap hi.2).2 (insertion_reach hi.1).2.1
                simp only [insStepsLeft]; omega
              | _ => simp only [insStepsLeft]; omega
        · refine ⟨pc, by rw [← h1]; exact List.getElem?_set_ne hut, ?_⟩
          simpa [hut] using h2
      · unfold step at hcr; rw [hok, hu] at hcr; dsimp only at hcr; rw [hp] at hcr; simp at hcr
      · unfold step at hcr; rw [hok, hu] at hcr; dsimp only at hcr; rw [hp] at hcr; simp at hcr

/-- non-vacuity: the histories above are of two goroutines and two keys, 16 steps each are enough -/
example : (run insertionSort 2 (start insertionSort [[3], [2]] 2) (List.replicate 16 1 ++ List.replicate 16 0)).threads =
    [.done (encode 2 [[2], [3]] 2), .done (encode 2 [[2], [3]] 2)] := rfl

/-- An algorithm that bubbles the last key down without testing where the array ends. -/
def unguarded : SortAlg where
  St := Int
  init n := n
  op s := if s < 0 then .stop else .less s.toNat (s.toNat + 1)
  next s _ := s - 1

/-- non-vacuity of C92_panic_iff: with an algorithm that does not stay inside the first step ends the program -/
example : (run unguarded 2 (start unguarded [[3], [2]] 2) [1]).crashed = true := by decide +kernel

end Verif.Props
