import Verif.Lemmas.SortSteps
/-!
# C92: goroutines that share a redeem script
-/
namespace Verif.Props
open Verif Verif.Spec Verif.Redeem Verif.Op

/-! ## Go's insertion sort sorts -/

/-- Elements of an array. -/
def at_ (b : List Bytes) (k : Nat) : Bytes := b.getD k []

theorem at_some {b : List Bytes} {k : Nat} (h : k < b.length) : b[k]? = some (at_ b k) := by
  unfold at_; rw [List.getD_eq_getElem?_getD, List.getElem?_eq_getElem h]; rfl

theorem at_swap {b : List Bytes} {i j : Nat} (hi : i < b.length) (hj : j < b.length) (k : Nat) :
    at_ ((b.set j (at_ b i)).set i (at_ b j)) k = if k = i then at_ b j else if k = j then at_ b i else at_ b k := by
  unfold at_
  simp only [List.getD_eq_getElem?_getD, List.getElem?_set, List.length_set]
  by_cases h1 : i = k
  · subst h1; simp [hi]
  · by_cases h2 : j = k
    · subst h2; rw [if_neg h1, if_neg (Ne.symm h1)]; simp [hj]
    · rw [if_neg h1, if_neg h2, if_neg (Ne.symm h1), if_neg (Ne.symm h2)]

/-- The first `n` elements are in order. -/
def Upto (b : List Bytes) (n : Nat) : Prop := ∀ a c, a < c → c < n → lexLe (at_ b a) (at_ b c)

theorem upto_sorted {b : List Bytes} (h : Upto b b.length) : b.Pairwise lexLe := by
  rw [List.pairwise_iff_getElem]
  intro i j hi hj hij
  have := h i j hij hj
  have e1 := at_some hi
  have e2 := at_some hj
  rw [List.getElem?_eq_getElem hi, Option.some.injEq] at e1
  rw [List.getElem?_eq_getElem hj, Option.some.injEq] at e2
  rw [e1, e2]; exact this

theorem sorted_upto {b : List Bytes} (h : b.Pairwise lexLe) : Upto b b.length := by
  rw [List.pairwise_iff_getElem] at h
  intro i j hij hj
  have := h i j (by omega) hj hij
  have e1 := at_some (show i < b.length by omega)
  have e2 := at_some hj
  rw [List.getElem?_eq_getElem (by omega), Option.some.injEq] at e1
  rw [List.getElem?_eq_getElem hj, Option.some.injEq] at e2
  rw [← e1, ← e2]; exact this

/-- In the middle of the inner loop: the elements up to `i` are in order but for the one at `j`, which is not larger than those above it. -/
structure Mid (b : List Bytes) (i j : Nat) : Prop where
  others : ∀ a c, a < c → c ≤ i → a ≠ j → c ≠ j → lexLe (at_ b a) (at_ b c)
  above : ∀ c, j < c → c ≤ i → lexLe (at_ b j) (at_ b c)

theorem Mid.start {b : List Bytes} {i : Nat} (h : Upto b i) : Mid b i i :=
  ⟨fun a c hac hc _ hne => h a c hac (by omega), fun c h1 h2 => by omega⟩

theorem Mid.finish {b : List Bytes} {i j : Nat} (h : Mid b i j) (hj : j = 0 ∨ lexLe (at_ b (j - 1)) (at_ b j)) : Upto b (i + 1) := by
  intro a c hac hc
  by_cases ha : a = j
  · subst ha; exact h.above c hac (by omega)
  · by_cases hcj : c = j
    · subst hcj
      rcases hj with rfl | hj
      · omega
      · by_cases hae : a = c - 1
        · rw [hae]; exact hj
        · exact lexLe_trans (h.others a (c - 1) (by omega) (by omega) ha (by omega)) hj
    · exact h.others a c hac (by omega) ha hcj

theorem Mid.swap {b : List Bytes} {i j : Nat} (h : Mid b i j) (hj : 0 < j) (hji : j ≤ i) (hi : i < b.length) (hlt : lexLe (at_ b j) (at_ b (j - 1))) :
    Mid ((b.set (j - 1) (at_ b j)).set j (at_ b (j - 1))) i (j - 1) := by
  have hs := at_swap (b := b) (i := j) (j := j - 1) (by omega) (by omega)
  constructor
  · intro a c hac hc ha hcj
    rw [hs, hs, if_neg hcj, if_neg ha]
    by_cases h1 : a = j
    · rw [if_pos h1, if_neg (by omega)]
      exact h.others (j - 1) c (by omega) hc (by omega) (by omega)
    · rw [if_neg h1]
      by_cases h2 : c = j
      · rw [if_pos h2]
        exact h.others a (j - 1) (by omega) (by omega) h1 (by omega)
      · rw [if_neg h2]
        exact h.others a c hac hc h1 h2
  · intro c h1 h2
    rw [hs, hs, if_neg (by omega), if_pos rfl]
    by_cases h3 : c = j
    · rw [if_pos h3]; exact hlt
    · rw [if_neg h3, if_neg (by omega)]; exact h.above c (by omega) h2

theorem lt_le {x y : Bytes} (h : lessBytes x y = true) : lexLe x y := by
  rcases lexLe_total x y with h' | h'
  · exact h'
  · have := (lessBytes_false_iff x y).mpr h'
    rw [this] at h; cases h

/-- The sort finishes from the beginning of the inner loop at `j`. -/
theorem insertion_inner (b : List Bytes) (n i j : Nat) (hn : b.length = n) (hi : i < n) (hj : 0 < j) (hji : j ≤ i) (h : Mid b i j)
    (rest : ∀ b' : List Bytes, b'.length = n → Upto b' (i + 1) →
      ∃ fuel b'', sortAlone insertionSort fuel ⟨n, i + 1, i + 1, false⟩ b' = .ok (some b'') ∧ b''.Pairwise lexLe) :
    ∃ fuel b', sortAlone insertionSort fuel ⟨n, i, j, false⟩ b = .ok (some b') ∧ b'.Pairwise lexLe := by
  induction j using Nat.strong_induction_on generalizing b with
  | _ j ih =>
    have hx := at_some (b := b) (k := j) (by omega)
    have hy := at_some (b := b) (k := j - 1) (by omega)
    by_cases hl : lessBytes (at_ b j) (at_ b (j - 1)) = true
    · -- swap
      have hsw := h.swap hj hji (by omega) (lt_le hl)
      have hswap : swapAt b j (j - 1) = .ok ((b.set (j - 1) (at_ b j)).set j (at_ b (j - 1))) := by
        unfold swapAt; rw [index_ok.mpr hx, Res.ok_bind, index_ok.mpr hy]; rfl
      have hrest : ∃ fuel b', sortAlone insertionSort fuel (insertionSort.next ⟨n, i, j, true⟩ false) ((b.set (j - 1) (at_ b j)).set j (at_ b (j - 1))) = .ok (some b') ∧
          b'.Pairwise lexLe := by
        by_cases h0 : j - 1 = 0
        · have : insertionSort.next ⟨n, i, j, true⟩ false = ⟨n, i + 1, i + 1, false⟩ := by simp [insertionSort, h0]
          rw [this]
          exact rest _ (by simp [hn]) (hsw.finish (Or.inl h0))
        · have : insertionSort.next ⟨n, i, j, true⟩ false = ⟨n, i, j - 1, false⟩ := by simp [insertionSort, h0]
          rw [this]
          exact ih (j - 1) (by omega) _ (by simp [hn]) (by omega) (by omega) hsw
      obtain ⟨fuel, b', hf, hs⟩ := hrest
      refine ⟨fuel + 1 + 1, b', ?_, hs⟩
      have o1 : insertionSort.op ⟨n, i, j, false⟩ = .less j (j - 1) := by simp [insertionSort, hi]
      have n1 : insertionSort.next ⟨n, i, j, false⟩ true = ⟨n, i, j, true⟩ := by simp [insertionSort]
      have o2 : insertionSort.op ⟨n, i, j, true⟩ = .swap j (j - 1) := by simp [insertionSort, hi]
      rw [sortAlone_less (alg := insertionSort) (fuel + 1) o1 (lessAt_ok hx hy), hl, n1, sortAlone_swap (alg := insertionSort) fuel o2 hswap]
      exact hf
    · have hl : lessBytes (at_ b j) (at_ b (j - 1)) = false := by simpa using hl
      obtain ⟨fuel, b', hf, hs⟩ := rest b hn (h.finish (Or.inr ((lessBytes_false_iff _ _).mp hl)))
      refine ⟨fuel + 1, b', ?_, hs⟩
      have o1 : insertionSort.op ⟨n, i, j, false⟩ = .less j (j - 1) := by simp [insertionSort, hi]
      have n1 : insertionSort.next ⟨n, i, j, false⟩ false = ⟨n, i + 1, i + 1, false⟩ := by simp [insertionSort]
      rw [sortAlone_less (alg := insertionSort) fuel o1 (lessAt_ok hx hy), hl, n1]
      exact hf

theorem insertion_outer (n : Nat) : ∀ (d i : Nat) (b : List Bytes), n - i = d → 0 < i → b.length = n → Upto b i →
    ∃ fuel b', sortAlone insertionSort fuel ⟨n, i, i, false⟩ b = .ok (some b') ∧ b'.Pairwise lexLe := by
  intro d
  induction d with
  | zero =>
    intro i b hd hi hn hu
    refine ⟨0, b, ?_, upto_sorted (fun a c h1 h2 => hu a c h1 (by omega))⟩
    have : insertionSort.op ⟨n, i, i, false⟩ = .stop := by simp [insertionSort]; omega
    exact sortAlone_stop (alg := insertionSort) 0 b this
  | succ d ih =>
    intro i b hd hi hn hu
    exact insertion_inner b n i i hn (by omega) hi (le_refl _) (Mid.start hu) (fun b' hb' hu' => ih (i + 1) b' (by omega) (by omega) hb' hu')

/-- C92: Go's insertion sort, run through `Less` and `Swap` of byte strings, sorts. -/
theorem C92_insertion_sorts : Sorts insertionSort :=
  fun b => insertion_outer b.length _ 1 b rfl (by norm_num) rfl (fun a c h1 h2 => by omega)

/-- C92: ... and swaps nothing when the keys are already in order. -/
theorem C92_insertion_leaves_sorted : LeavesSorted insertionSort := by
  intro b hb
  have key : ∀ fuel i, 0 < i → ∀ o ∈ opsAlone insertionSort fuel ⟨b.length, i, i, false⟩ b, ∀ x y, o ≠ .swap x y := by
    intro fuel
    induction fuel with
    | zero => intro i _ o ho; simp [opsAlone] at ho
    | succ fuel ih =>
      intro i hi o ho x y
      by_cases h : i < b.length
      · have o1 : insertionSort.op ⟨b.length, i, i, false⟩ = .less i (i - 1) := by simp [insertionSort, h]
        have hx := at_some (b := b) (k := i) h
        have hy := at_some (b := b) (k := i - 1) (by omega)
        have hl : lessBytes (at_ b i) (at_ b (i - 1)) = false := (lessBytes_false_iff _ _).mpr (sorted_upto hb (i - 1) i (by omega) h)
        have n1 : insertionSort.next ⟨b.length, i, i, false⟩ false = ⟨b.length, i + 1, i + 1, false⟩ := by simp [insertionSort]
        rw [opsAlone_less (alg := insertionSort) fuel o1 (lessAt_ok hx hy), hl, n1] at ho
        rcases List.mem_cons.mp ho with rfl | ho
        · simp
        · exact ih (i + 1) (by omega) o ho x y
      · have o1 : insertionSort.op ⟨b.length, i, i, false⟩ = .stop := by simp [insertionSort]; omega
        rw [opsAlone_stop (alg := insertionSort) _ b o1] at ho; simp at ho
  intro fuel o ho
  exact key fuel 1 (by norm_num) o ho

/-- non-vacuity: three keys out of order, sorted by seven calls; and in order, two comparisons -/
example : sortAlone insertionSort 7 (insertionSort.init 3) [[3], [2], [1]] = .ok (some [[1], [2], [3]]) ∧
    opsAlone insertionSort 9 (insertionSort.init 3) [[1], [2], [3]] = [.less 1 0, .less 2 1] := by decide +kernel

/-! ## Goroutines -/

/-- C92: when one call has returned before the others begin, the keys are sorted and stay so, nothing panics, and every call that returns, however the goroutines are then interleaved,
returns the redeem script. `alg` is any sorting algorithm that swaps nothing in a sorted array. -/
theorem C92_after_first (alg : SortAlg) (hs : Sorts alg) (hq : LeavesSorted alg) (rs : RedeemScript) (n t : Nat) (ht : t < n) :
    ∃ N, ∀ schedule, let σ := run alg rs.SignaturesRequired (start alg rs.PublicKeys n) (List.replicate N t ++ schedule)
      σ.crashed = false ∧ σ.keys = SortByteArrays rs.PublicKeys ∧ σ.threads[t]? = some (.done (GetRedeemScript rs).1) ∧
      ∀ script, PC.done script ∈ σ.threads → script = (GetRedeemScript rs).1 := by
  obtain ⟨N, log, e⟩ := goes_done hs rs.SignaturesRequired t rs.PublicKeys (start alg rs.PublicKeys n) rfl rfl (by simp [start, ht])
  refine ⟨N, fun schedule => ?_⟩
  intro σ
  have hσ : σ = run alg rs.SignaturesRequired { keys := SortByteArrays rs.PublicKeys, threads := (start alg rs.PublicKeys n).threads.set t (.done (encode rs.SignaturesRequired (SortByteArrays rs.PublicKeys) (SortByteArrays rs.PublicKeys).length)), crashed := false, log := log } schedule := by
    show run _ _ _ _ = _
    rw [run_append, e]
  rw [encode_sorted] at hσ
  have hsafe : Safe alg rs.SignaturesRequired (SortByteArrays rs.PublicKeys)
      { keys := SortByteArrays rs.PublicKeys, threads := (start alg rs.PublicKeys n).threads.set t (.done (GetRedeemScript rs).1), crashed := false, log := log } := by
    refine ⟨rfl, rfl, ?_⟩
    intro pc hpc
    rcases List.mem_or_eq_of_mem_set hpc with h | rfl
    · rw [List.eq_of_mem_replicate h]
      show Reach alg _ _
      rw [← (C05_sort_perm rs.PublicKeys).length_eq]
      exact Reach.init
    · exact (encode_sorted rs).symm
  have hfin := hsafe.run hs hq (C05_sort_sorted _) schedule
  rw [← hσ] at hfin
  refine ⟨hfin.1, hfin.2.1, ?_, ?_⟩
  · -- a returned goroutine stays returned
    have stay : ∀ (sched : List Nat) (τ : Sys alg), τ.threads[t]? = some (.done (GetRedeemScript rs).1) →
        (run alg rs.SignaturesRequired τ sched).threads[t]? = some (.done (GetRedeemScript rs).1) := by
      intro sched
      induction sched with
      | nil => intro τ h; exact h
      | cons u us ih =>
        intro τ h
        refine ih _ ?_
        rcases step_cases (m := rs.SignaturesRequired) τ u with ⟨_, h2, _⟩ | ⟨pc, b, pc', acc, hu, hp, e⟩
        · rw [h2]; exact h
        · rw [e]
          dsimp only
          by_cases hut : u = t
          · subst hut
            rw [h, Option.some.injEq] at hu
            subst hu
            have hp : Res.ok (τ.keys, PC.done (GetRedeemScript rs).1, []) = Res.ok (b, pc', acc) := hp
            simp only [Res.ok.injEq, Prod.mk.injEq] at hp
            obtain ⟨_, rfl, _⟩ := hp
            rw [List.getElem?_set_self (List.getElem?_eq_some_iff.mp h).1]
          · rw [List.getElem?_set_ne hut]; exact h
    rw [hσ]
    apply stay
    dsimp only
    rw [List.getElem?_set_self (by simp [start, ht])]
  · intro script hsc
    have := hfin.2.2 _ hsc
    rw [show script = _ from this, encode_sorted]

/-- non-vacuity: two goroutines on unsorted keys; the first runs alone for 14 steps and the second then gets the same script -/
example : Sorts insertionSort ∧ LeavesSorted insertionSort ∧ (0 < 2) ∧
    (run insertionSort 1 (start insertionSort [[3], [2]] 2) (List.replicate 14 0 ++ List.replicate 9 1)).threads.length = 2 :=
  ⟨C92_insertion_sorts, C92_insertion_leaves_sorted, by norm_num, by decide +kernel⟩

/-- C92: keys already in order (for example after an earlier call): any number of goroutines, any schedule: no panic, the keys are not changed, and every call that returns returns the
redeem script. -/
theorem C92_sorted (alg : SortAlg) (hs : Sorts alg) (hq : LeavesSorted alg) (rs : RedeemScript) (hk : rs.PublicKeys.Pairwise lexLe) (n : Nat) (schedule : List Nat) :
    let σ := run alg rs.SignaturesRequired (start alg rs.PublicKeys n) schedule
    σ.crashed = false ∧ σ.keys = rs.PublicKeys ∧ ∀ script, PC.done script ∈ σ.threads → script = (GetRedeemScript rs).1 := by
  intro σ
  have hsafe : Safe alg rs.SignaturesRequired rs.PublicKeys (start alg rs.PublicKeys n) := by
    refine ⟨rfl, rfl, ?_⟩
    intro pc hpc
    rw [List.eq_of_mem_replicate hpc]
    exact Reach.init
  have hfin := hsafe.run hs hq hk schedule
  refine ⟨hfin.1, hfin.2.1, ?_⟩
  intro script hsc
  have := hfin.2.2 _ hsc
  rw [show script = _ from this, ← encode_sorted, sorted_perm_unique (C05_sort_perm rs.PublicKeys) (C05_sort_sorted _) hk]

/-- non-vacuity -/
example : [[2], [3], [3, 1]].Pairwise lexLe := by
  simp [lexLe]

/-- C92: whatever the keys, the algorithm and the schedule, the array keeps its length and holds no keys but the ones added, and a call that returns returns the encoding of as many
keys, all of them keys that were added. (They need not be all of them: see the next theorem.) -/
theorem C92_members (alg : SortAlg) (rs : RedeemScript) (n : Nat) (schedule : List Nat) :
    let σ := run alg rs.SignaturesRequired (start alg rs.PublicKeys n) schedule
    σ.keys.length = rs.PublicKeys.length ∧ (∀ k ∈ σ.keys, k ∈ rs.PublicKeys) ∧
    ∀ script, PC.done script ∈ σ.threads → ∃ ks : List Bytes, ks.length = rs.PublicKeys.length ∧ (∀ k ∈ ks, k ∈ rs.PublicKeys) ∧
      script = encode rs.SignaturesRequired ks ks.length := by
  intro σ
  have h0 : From alg rs.SignaturesRequired rs.PublicKeys (start alg rs.PublicKeys n) := by
    refine ⟨rfl, fun _ h => h, ?_⟩
    intro pc hpc
    rw [List.eq_of_mem_replicate hpc]
    trivial
  have h := h0.run schedule
  exact ⟨h.1, h.2.1, fun script hsc => h.2.2 _ hsc⟩

/-- The order in which two goroutines step in the lost-key history: both see two keys out of order; the second one's swap reads the array between the first one's two writes. -/
def lostKeySchedule : List Nat := [0, 0, 0, 0, 1, 1, 0, 1, 1, 0, 1, 1, 0, 0, 0, 0, 1, 1, 1, 1]

/-- C92, violated: two goroutines ask for the redeem script of two keys that are not in order. With this schedule both calls return a script that has the smaller key twice and the
other not at all, and the redeem script object itself has lost the larger key for good. For every two different keys, with Go's insertion sort. -/
theorem C92_lost_key (m : Int) (small large : Bytes) (h : lessBytes small large = true) :
    let rs : RedeemScript := ⟨m, [large, small], []⟩
    let σ := run insertionSort m (start insertionSort rs.PublicKeys 2) lostKeySchedule
    σ.crashed = false ∧ σ.keys = [small, small] ∧ σ.threads = [.done (encode m [small, small] 2), .done (encode m [small, small] 2)] ∧
    encode m [small, small] 2 ≠ (GetRedeemScript rs).1 := by
  intro rs σ
  have hσ : σ.crashed = false ∧ σ.keys = [small, small] ∧ σ.threads = [.done (encode m [small, small] 2), .done (encode m [small, small] 2)] := by
    simp [σ, rs, lostKeySchedule, run, step, pcStep, start, insertionSort, index, h, List.replicate, Bind.bind, Res.bind, pure]
  refine ⟨hσ.1, hσ.2.1, hσ.2.2, ?_⟩
  have hsort : SortByteArrays [large, small] = [small, large] := by
    simp [SortByteArrays, insertSorted, h]
  rw [← encode_sorted]
  show encode m [small, small] 2 ≠ encode m (SortByteArrays [large, small]) (SortByteArrays [large, small]).length
  rw [hsort]
  intro e
  have hne : small ≠ large := by
    rintro rfl
    have := (lessBytes_false_iff small small).mpr (by rcases lexLe_total small small with h | h <;> exact h)
    rw [this] at h; cases h
  have hlen := congrArg List.length e
  simp only [encode, redeemKeys, List.length_append, List.length_cons, List.length_nil] at hlen
  simp only [encode, redeemKeys, List.length_cons, List.length_nil] at e
  rw [List.append_left_inj, List.append_left_inj, List.append_right_inj, List.cons.injEq] at e
  have e2 := e.2
  rw [List.append_right_inj, List.cons.injEq, List.append_left_inj] at e2
  exact hne e2.2

/-- non-vacuity -/
example : lessBytes [2, 7] [3, 1] = true := by decide +kernel

/-- C92: two calls always race, sorted keys or not: each writes `rs.PublicKeys`. -/
theorem C92_races (alg : SortAlg) (m : Int) (keys : List Bytes) (n : Nat) (schedule : List Nat) (t u : Nat) (s s' : Bytes) (htu : t ≠ u)
    (ht : (run alg m (start alg keys n) schedule).threads[t]? = some (.done s)) (hu : (run alg m (start alg keys n) schedule).threads[u]? = some (.done s')) :
    RedeemRace (run alg m (start alg keys n) schedule).log := by
  have h0 : Wrote (start alg keys n) := by
    intro t pc hpc hd
    have := List.mem_of_getElem? hpc
    rw [List.eq_of_mem_replicate this] at hd
    simp at hd
  have h := h0.run (m := m) schedule
  exact ⟨_, h t _ ht (Or.inr ⟨s, rfl⟩), _, h u _ hu (Or.inr ⟨s', rfl⟩), htu, rfl, rfl⟩

/-- non-vacuity: the two calls of the lost-key history have returned -/
example : (run insertionSort 1 (start insertionSort [[3], [2]] 2) lostKeySchedule).threads[0]? = some (.done (encode 1 [[2], [2]] 2)) ∧
    (run insertionSort 1 (start insertionSort [[3], [2]] 2) lostKeySchedule).threads[1]? = some (.done (encode 1 [[2], [2]] 2)) := by
  have := (C92_lost_key 1 [2] [3] (by decide +kernel)).2.2.1
  constructor
  · have h := congrArg (fun l => l[0]?) this
    exact h
  · have h := congrArg (fun l => l[1]?) this
    exact h

end Verif.Props
