import Verif.Spec.SortSteps
import Verif.Props.Redeem
/-!
# Lemmas about sorting step by step
-/
namespace Verif.Redeem
open Verif Verif.Spec Verif.Props Verif.Op

theorem index_ok {α : Type} {l : List α} {i : Nat} {x : α} : index l i = .ok x ↔ l[i]? = some x := by
  unfold index; cases l[i]? <;> simp

theorem swapAt_eq {b b' : List Bytes} {i j : Nat} (h : swapAt b i j = .ok b') :
    ∃ x y, b[i]? = some x ∧ b[j]? = some y ∧ b' = (b.set j x).set i y := by
  unfold swapAt at h
  obtain ⟨x, hx, h⟩ := Res.bind_eq_ok.mp h
  obtain ⟨y, hy, h⟩ := Res.bind_eq_ok.mp h
  rw [Res.pure_eq, Res.ok.injEq] at h
  exact ⟨x, y, index_ok.mp hx, index_ok.mp hy, h.symm⟩

theorem sortAlone_stop {alg : SortAlg} (fuel : Nat) {s : alg.St} (b : List Bytes) (h : alg.op s = .stop) : sortAlone alg fuel s b = .ok (some b) := by
  cases fuel <;> (unfold sortAlone; rw [h])

theorem sortAlone_less {alg : SortAlg} (fuel : Nat) {s : alg.St} {b : List Bytes} {i j : Nat} {yes : Bool} (h : alg.op s = .less i j) (hl : lessAt b i j = .ok yes) :
    sortAlone alg (fuel + 1) s b = sortAlone alg fuel (alg.next s yes) b := by
  rw [sortAlone, h]; dsimp only; rw [hl, Res.ok_bind]

theorem sortAlone_swap {alg : SortAlg} (fuel : Nat) {s : alg.St} {b b' : List Bytes} {i j : Nat} (h : alg.op s = .swap i j) (hl : swapAt b i j = .ok b') :
    sortAlone alg (fuel + 1) s b = sortAlone alg fuel (alg.next s false) b' := by
  rw [sortAlone, h]; dsimp only; rw [hl, Res.ok_bind]

theorem opsAlone_stop {alg : SortAlg} (fuel : Nat) {s : alg.St} (b : List Bytes) (h : alg.op s = .stop) : opsAlone alg fuel s b = [] := by
  cases fuel
  · rfl
  · rw [opsAlone, h]

theorem opsAlone_less {alg : SortAlg} (fuel : Nat) {s : alg.St} {b : List Bytes} {i j : Nat} {yes : Bool} (h : alg.op s = .less i j) (hl : lessAt b i j = .ok yes) :
    opsAlone alg (fuel + 1) s b = .less i j :: opsAlone alg fuel (alg.next s yes) b := by
  rw [opsAlone, h]; dsimp only; rw [hl]

theorem swap_perm {b : List Bytes} {i j : Nat} {x y : Bytes} (hx : b[i]? = some x) (hy : b[j]? = some y) : ((b.set j x).set i y).Perm b := by
  obtain ⟨hi, rfl⟩ := List.getElem?_eq_some_iff.mp hx
  obtain ⟨hj, rfl⟩ := List.getElem?_eq_some_iff.mp hy
  exact List.set_set_perm hj hi

/-- Only swaps change the array. -/
theorem sortAlone_perm {alg : SortAlg} : ∀ (fuel : Nat) (s : alg.St) (b b' : List Bytes), sortAlone alg fuel s b = .ok (some b') → b'.Perm b
  | 0, s, b, b', h => by
    unfold sortAlone at h
    split at h <;> simp at h
    rw [h]
  | fuel + 1, s, b, b', h => by
    unfold sortAlone at h
    split at h
    · simp at h; rw [h]
    · obtain ⟨yes, _, h⟩ := Res.bind_eq_ok.mp h
      exact sortAlone_perm fuel _ _ _ h
    · obtain ⟨c, hc, h⟩ := Res.bind_eq_ok.mp h
      obtain ⟨x, y, hx, hy, rfl⟩ := swapAt_eq hc
      exact (sortAlone_perm fuel _ _ _ h).trans (swap_perm hx hy)

/-- A sorting algorithm leaves the sorted keys. -/
theorem sorts_result {alg : SortAlg} (hs : Sorts alg) (b : List Bytes) :
    ∃ fuel, sortAlone alg fuel (alg.init b.length) b = .ok (some (SortByteArrays b)) := by
  obtain ⟨fuel, b', h, hsorted⟩ := hs b
  refine ⟨fuel, ?_⟩
  rw [h, sorted_perm_unique ((sortAlone_perm _ _ _ _ h).trans (C05_sort_perm b).symm) hsorted (C05_sort_sorted b)]

theorem encode_sorted (rs : RedeemScript) :
    encode rs.SignaturesRequired (SortByteArrays rs.PublicKeys) (SortByteArrays rs.PublicKeys).length = (GetRedeemScript rs).1 := rfl

/-! ## Runs -/

theorem run_append (alg : SortAlg) (m : Int) (σ : Sys alg) (a b : List Nat) : run alg m σ (a ++ b) = run alg m (run alg m σ a) b := by
  unfold run; rw [List.foldl_append]

theorem step_eq {alg : SortAlg} {m : Int} {σ : Sys alg} {t : Nat} {pc : PC alg.St} {b : List Bytes} {pc' : PC alg.St} {acc : List (Bool × Loc)}
    (hc : σ.crashed = false) (ht : σ.threads[t]? = some pc) (h : pcStep alg m σ.keys pc = .ok (b, pc', acc)) :
    step alg m σ t = { keys := b, threads := σ.threads.set t pc', crashed := false, log := σ.log ++ acc.map fun a => ⟨t, a.1, a.2⟩ } := by
  unfold step
  rw [hc, ht]
  simp only [Bool.false_eq_true, if_false]
  rw [h]

/-- Goroutine `t` gets from position `pc` with keys `b` to position `pc'` with keys `b'` by steps of its own. -/
def Goes (alg : SortAlg) (m : Int) (t : Nat) (b : List Bytes) (pc : PC alg.St) (b' : List Bytes) (pc' : PC alg.St) : Prop :=
  ∀ σ : Sys alg, σ.crashed = false → σ.keys = b → σ.threads[t]? = some pc →
    ∃ N log, run alg m σ (List.replicate N t) = { keys := b', threads := σ.threads.set t pc', crashed := false, log := log }

theorem Goes.refl (alg : SortAlg) (m : Int) (t : Nat) (b : List Bytes) (pc : PC alg.St) : Goes alg m t b pc b pc := by
  intro σ hc hk ht
  refine ⟨0, σ.log, ?_⟩
  obtain ⟨hlt, he⟩ := List.getElem?_eq_some_iff.mp ht
  cases σ
  simp only at hc hk
  subst hc hk
  simp only [run, List.replicate_zero, List.foldl_nil, Sys.mk.injEq, true_and, and_true]
  rw [← he, List.set_getElem_self]

theorem Goes.trans {alg : SortAlg} {m : Int} {t : Nat} {b b' b'' : List Bytes} {p p' p'' : PC alg.St} (h1 : Goes alg m t b p b' p')
    (h2 : Goes alg m t b' p' b'' p'') : Goes alg m t b p b'' p'' := by
  intro σ hc hk ht
  obtain ⟨N1, l1, e1⟩ := h1 σ hc hk ht
  have hlt : t < σ.threads.length := (List.getElem?_eq_some_iff.mp ht).1
  obtain ⟨N2, l2, e2⟩ := h2 { keys := b', threads := σ.threads.set t p', crashed := false, log := l1 } rfl rfl (by simp [hlt])
  refine ⟨N1 + N2, l2, ?_⟩
  rw [List.replicate_add, run_append, e1, e2]
  simp

theorem Goes.one {alg : SortAlg} {m : Int} (t : Nat) {b b' : List Bytes} {p p' : PC alg.St} {acc : List (Bool × Loc)}
    (h : pcStep alg m b p = .ok (b', p', acc)) : Goes alg m t b p b' p' := by
  intro σ hc hk ht
  subst hk
  exact ⟨1, _, by rw [List.replicate_one]; exact step_eq hc ht h⟩

theorem goes_sort {alg : SortAlg} (m : Int) (t : Nat) : ∀ (fuel : Nat) (s : alg.St) (b b' : List Bytes), sortAlone alg fuel s b = .ok (some b') →
    Goes alg m t b (.sorting s) b' (.build [])
  | 0, s, b, b', h => by
    unfold sortAlone at h
    split at h
    · rename_i ho
      simp at h; subst h
      exact Goes.one t (acc := [(true, .header), (false, .header)]) (by unfold pcStep; dsimp only; rw [ho])
    · simp at h
  | fuel + 1, s, b, b', h => by
    unfold sortAlone at h
    split at h
    · rename_i ho
      simp at h; subst h
      exact Goes.one t (acc := [(true, .header), (false, .header)]) (by unfold pcStep; dsimp only; rw [ho])
    · rename_i i j ho
      obtain ⟨yes, hy, h⟩ := Res.bind_eq_ok.mp h
      unfold lessAt at hy
      obtain ⟨x, hx, hy⟩ := Res.bind_eq_ok.mp hy
      obtain ⟨y, hy', hy⟩ := Res.bind_eq_ok.mp hy
      rw [Res.pure_eq, Res.ok.injEq] at hy
      have s1 : pcStep alg m b (.sorting s) = .ok (b, .less s j x, [(false, .elem i)]) := by
        unfold pcStep; dsimp only; rw [ho]; dsimp only; rw [hx]; rfl
      have s2 : pcStep alg m b (.less s j x) = .ok (b, .sorting (alg.next s yes), [(false, .elem j)]) := by
        unfold pcStep; dsimp only; rw [hy', ← hy]; rfl
      exact ((Goes.one t s1).trans (Goes.one t s2)).trans (goes_sort m t fuel _ _ _ h)
    · rename_i i j ho
      obtain ⟨c, hc, h⟩ := Res.bind_eq_ok.mp h
      obtain ⟨x, y, hx, hy, rfl⟩ := swapAt_eq hc
      have s1 : pcStep alg m b (.sorting s) = .ok (b, .swapRead s i j x, [(false, .elem i)]) := by
        unfold pcStep; dsimp only; rw [ho]; dsimp only; rw [index_ok.mpr hx]; rfl
      have s2 : pcStep alg m b (.swapRead s i j x) = .ok (b, .swapFirst s i j x y, [(false, .elem j)]) := by
        unfold pcStep; dsimp only; rw [index_ok.mpr hy]; rfl
      exact ((((Goes.one t s1).trans (Goes.one t s2)).trans (Goes.one t rfl)).trans (Goes.one t rfl)).trans (goes_sort m t fuel _ _ _ h)

theorem goes_build {alg : SortAlg} (m : Int) (t : Nat) (b : List Bytes) : ∀ (k : Nat), k ≤ b.length →
    Goes alg m t b (.build []) b (.build (b.take k))
  | 0, _ => by rw [List.take_zero]; exact Goes.refl alg m t b _
  | k + 1, hk => by
    refine (goes_build m t b k (by omega)).trans (Goes.one t (acc := [(false, .elem k)]) ?_)
    unfold pcStep
    dsimp only
    have hl : (b.take k).length = k := by rw [List.length_take]; omega
    rw [hl, List.getElem?_eq_getElem (by omega : k < b.length), List.take_succ_eq_append_getElem (by omega)]

/-- A goroutine that runs alone returns the encoding of the sorted keys. -/
theorem goes_done {alg : SortAlg} (hs : Sorts alg) (m : Int) (t : Nat) (b : List Bytes) :
    Goes alg m t b (.sorting (alg.init b.length)) (SortByteArrays b) (.done (encode m (SortByteArrays b) (SortByteArrays b).length)) := by
  obtain ⟨fuel, h⟩ := sorts_result hs b
  refine ((goes_sort m t fuel _ _ _ h).trans (goes_build m t _ (SortByteArrays b).length (le_refl _))).trans (Goes.one t (acc := [(false, .header)]) ?_)
  unfold pcStep
  dsimp only
  rw [List.take_length, List.getElem?_eq_none (le_refl _)]

/-! ## Sorted keys -/

/-- States the algorithm goes through on a sorted array, by calls of `Less` alone. -/
inductive Reach (alg : SortAlg) (b : List Bytes) : alg.St → Prop where
  | init : Reach alg b (alg.init b.length)
  | less (s : alg.St) (i j : Nat) (x y : Bytes) (hr : Reach alg b s) (ho : alg.op s = .less i j) (hx : b[i]? = some x) (hy : b[j]? = some y) :
      Reach alg b (alg.next s (lessBytes x y))

theorem lessAt_ok {b : List Bytes} {i j : Nat} {x y : Bytes} (hx : b[i]? = some x) (hy : b[j]? = some y) : lessAt b i j = .ok (lessBytes x y) := by
  unfold lessAt; rw [index_ok.mpr hx, Res.ok_bind, index_ok.mpr hy]; rfl

theorem reach_terminates {alg : SortAlg} (hs : Sorts alg) {b : List Bytes} {s : alg.St} (h : Reach alg b s) :
    ∃ fuel b', sortAlone alg fuel s b = .ok (some b') := by
  induction h with
  | init => obtain ⟨fuel, b', h, _⟩ := hs b; exact ⟨fuel, b', h⟩
  | less s i j x y _ ho hx hy ih =>
    obtain ⟨fuel, b', h⟩ := ih
    rcases fuel with _ | fuel
    · unfold sortAlone at h; rw [ho] at h; simp at h
    · unfold sortAlone at h
      rw [ho] at h
      dsimp only at h
      rw [lessAt_ok hx hy, Res.ok_bind] at h
      exact ⟨fuel, b', h⟩

theorem reach_quiet {alg : SortAlg} (hq : LeavesSorted alg) {b : List Bytes} (hb : b.Pairwise lexLe) {s : alg.St} (h : Reach alg b s) :
    ∀ fuel, ∀ o ∈ opsAlone alg fuel s b, ∀ i j, o ≠ .swap i j := by
  induction h with
  | init => exact hq b hb
  | less s i j x y _ ho hx hy ih =>
    intro fuel o hm
    refine ih (fuel + 1) o ?_
    unfold opsAlone
    rw [ho]
    dsimp only
    rw [lessAt_ok hx hy]
    exact List.mem_cons_of_mem _ hm

/-- In such a state the algorithm returns, or compares two keys it can read. -/
theorem reach_op {alg : SortAlg} (hs : Sorts alg) (hq : LeavesSorted alg) {b : List Bytes} (hb : b.Pairwise lexLe) {s : alg.St} (h : Reach alg b s) :
    alg.op s = .stop ∨ ∃ i j x y, alg.op s = .less i j ∧ b[i]? = some x ∧ b[j]? = some y := by
  obtain ⟨fuel, b', ht⟩ := reach_terminates hs h
  rcases ho : alg.op s with ⟨i, j⟩ | ⟨i, j⟩ | _
  · right
    rcases fuel with _ | fuel
    · unfold sortAlone at ht; rw [ho] at ht; simp at ht
    · unfold sortAlone at ht
      rw [ho] at ht
      obtain ⟨yes, hy, _⟩ := Res.bind_eq_ok.mp ht
      unfold lessAt at hy
      obtain ⟨x, hx, hy⟩ := Res.bind_eq_ok.mp hy
      obtain ⟨y, hy', _⟩ := Res.bind_eq_ok.mp hy
      exact ⟨i, j, x, y, rfl, index_ok.mp hx, index_ok.mp hy'⟩
  · exfalso
    refine reach_quiet hq hb h 1 (.swap i j) ?_ i j rfl
    unfold opsAlone; rw [ho]; simp
  · exact Or.inl rfl

/-- Positions of goroutines that have found the keys sorted. -/
def GoodPC (alg : SortAlg) (m : Int) (b : List Bytes) : PC alg.St → Prop
  | .sorting s => Reach alg b s
  | .less s j x => Reach alg b s ∧ ∃ i y, alg.op s = .less i j ∧ b[i]? = some x ∧ b[j]? = some y
  | .build acc => acc = b.take acc.length ∧ acc.length ≤ b.length
  | .done script => script = encode m b b.length
  | _ => False

/-- A program in which every goroutine has found the keys sorted. -/
def Safe (alg : SortAlg) (m : Int) (b : List Bytes) (σ : Sys alg) : Prop :=
  σ.crashed = false ∧ σ.keys = b ∧ ∀ pc ∈ σ.threads, GoodPC alg m b pc

theorem good_step {alg : SortAlg} (hs : Sorts alg) (hq : LeavesSorted alg) {m : Int} {b : List Bytes} (hb : b.Pairwise lexLe) {pc : PC alg.St}
    (h : GoodPC alg m b pc) : ∃ pc' acc, pcStep alg m b pc = .ok (b, pc', acc) ∧ GoodPC alg m b pc' := by
  cases pc with
  | sorting s =>
    rcases reach_op hs hq hb h with ho | ⟨i, j, x, y, ho, hx, hy⟩
    · refine ⟨.build [], [(true, .header), (false, .header)], by unfold pcStep; dsimp only; rw [ho], ?_⟩
      simp [GoodPC]
    · refine ⟨.less s j x, [(false, .elem i)], by unfold pcStep; dsimp only; rw [ho]; dsimp only; rw [index_ok.mpr hx]; rfl, h, i, y, ho, hx, hy⟩
  | less s j x =>
    obtain ⟨hr, i, y, ho, hx, hy⟩ := h
    exact ⟨.sorting (alg.next s (lessBytes x y)), [(false, .elem j)], by unfold pcStep; dsimp only; rw [index_ok.mpr hy]; rfl, Reach.less s i j x y hr ho hx hy⟩
  | swapRead s i j x => exact h.elim
  | swapFirst s i j x y => exact h.elim
  | swapSecond s i y => exact h.elim
  | build acc =>
    obtain ⟨he, hl⟩ := h
    rcases hg : b[acc.length]? with _ | pk
    · refine ⟨.done (encode m acc b.length), [(false, .header)], by unfold pcStep; dsimp only; rw [hg], ?_⟩
      have : b.length ≤ acc.length := List.getElem?_eq_none_iff.mp hg
      rw [List.take_of_length_le this] at he
      show encode m acc b.length = encode m b b.length
      rw [he]
    · refine ⟨.build (acc ++ [pk]), [(false, .elem acc.length)], by unfold pcStep; dsimp only; rw [hg], ?_⟩
      obtain ⟨hlt, e⟩ := List.getElem?_eq_some_iff.mp hg
      refine ⟨?_, by simp; omega⟩
      rw [List.length_append, List.length_singleton, List.take_succ_eq_append_getElem hlt, ← he, e]
  | done script => exact ⟨.done script, [], rfl, h⟩

theorem Safe.step {alg : SortAlg} (hs : Sorts alg) (hq : LeavesSorted alg) {m : Int} {b : List Bytes} (hb : b.Pairwise lexLe) {σ : Sys alg}
    (h : Safe alg m b σ) (t : Nat) : Safe alg m b (step alg m σ t) := by
  obtain ⟨hc, hk, hp⟩ := h
  rcases ht : σ.threads[t]? with _ | pc
  · unfold Redeem.step; rw [hc, ht]; exact ⟨hc, hk, hp⟩
  · obtain ⟨pc', acc, h1, h2⟩ := good_step hs hq hb (hp pc (List.mem_of_getElem? ht))
    rw [← hk] at h1
    rw [step_eq hc ht h1]
    refine ⟨rfl, hk, ?_⟩
    intro p hpm
    rcases List.mem_or_eq_of_mem_set hpm with h | rfl
    · exact hp p h
    · exact h2

theorem Safe.run {alg : SortAlg} (hs : Sorts alg) (hq : LeavesSorted alg) {m : Int} {b : List Bytes} (hb : b.Pairwise lexLe) (sched : List Nat) :
    ∀ {σ : Sys alg}, Safe alg m b σ → Safe alg m b (run alg m σ sched) := by
  induction sched with
  | nil => intro σ h; exact h
  | cons t ts ih => intro σ h; exact ih (h.step hs hq hb t)

/-! ## Any keys, any algorithm -/

/-- Every key a goroutine holds is one of `K`, and so far it has read at most `n`. -/
def FromPC (alg : SortAlg) (m : Int) (K : List Bytes) : PC alg.St → Prop
  | .sorting _ => True
  | .less _ _ x => x ∈ K
  | .swapRead _ _ _ x => x ∈ K
  | .swapFirst _ _ _ x y => x ∈ K ∧ y ∈ K
  | .swapSecond _ _ y => y ∈ K
  | .build acc => acc.length ≤ K.length ∧ ∀ x ∈ acc, x ∈ K
  | .done script => ∃ ks : List Bytes, ks.length = K.length ∧ (∀ x ∈ ks, x ∈ K) ∧ script = encode m ks ks.length

def From (alg : SortAlg) (m : Int) (K : List Bytes) (σ : Sys alg) : Prop :=
  σ.keys.length = K.length ∧ (∀ x ∈ σ.keys, x ∈ K) ∧ ∀ pc ∈ σ.threads, FromPC alg m K pc

theorem mem_set {K b : List Bytes} {j : Nat} {x : Bytes} (h : ∀ z ∈ b, z ∈ K) (hx : x ∈ K) : ∀ z ∈ b.set j x, z ∈ K := by
  intro z hz
  rcases List.mem_or_eq_of_mem_set hz with h' | rfl
  · exact h z h'
  · exact hx

theorem from_step {alg : SortAlg} {m : Int} {K b b' : List Bytes} {pc pc' : PC alg.St} {acc : List (Bool × Loc)} (hl : b.length = K.length)
    (hb : ∀ x ∈ b, x ∈ K) (h : FromPC alg m K pc) (hs : pcStep alg m b pc = .ok (b', pc', acc)) :
    b'.length = K.length ∧ (∀ x ∈ b', x ∈ K) ∧ FromPC alg m K pc' := by
  unfold pcStep at hs
  cases pc with
  | sorting s =>
    dsimp only at hs
    split at hs
    · simp only [Res.ok.injEq, Prod.mk.injEq] at hs
      obtain ⟨rfl, rfl, _⟩ := hs
      exact ⟨hl, hb, by simp [FromPC]⟩
    · obtain ⟨x, hx, hs⟩ := Res.bind_eq_ok.mp hs
      simp only [Res.pure_eq, Res.ok.injEq, Prod.mk.injEq] at hs
      obtain ⟨rfl, rfl, _⟩ := hs
      exact ⟨hl, hb, hb x (List.mem_of_getElem? (index_ok.mp hx))⟩
    · obtain ⟨x, hx, hs⟩ := Res.bind_eq_ok.mp hs
      simp only [Res.pure_eq, Res.ok.injEq, Prod.mk.injEq] at hs
      obtain ⟨rfl, rfl, _⟩ := hs
      exact ⟨hl, hb, hb x (List.mem_of_getElem? (index_ok.mp hx))⟩
  | less s j x =>
    dsimp only at hs
    obtain ⟨y, hy, hs⟩ := Res.bind_eq_ok.mp hs
    simp only [Res.pure_eq, Res.ok.injEq, Prod.mk.injEq] at hs
    obtain ⟨rfl, rfl, _⟩ := hs
    exact ⟨hl, hb, trivial⟩
  | swapRead s i j x =>
    dsimp only at hs
    obtain ⟨y, hy, hs⟩ := Res.bind_eq_ok.mp hs
    simp only [Res.pure_eq, Res.ok.injEq, Prod.mk.injEq] at hs
    obtain ⟨rfl, rfl, _⟩ := hs
    exact ⟨hl, hb, h, hb y (List.mem_of_getElem? (index_ok.mp hy))⟩
  | swapFirst s i j x y =>
    simp only [Res.ok.injEq, Prod.mk.injEq] at hs
    obtain ⟨rfl, rfl, _⟩ := hs
    exact ⟨by simpa using hl, mem_set hb h.1, h.2⟩
  | swapSecond s i y =>
    simp only [Res.ok.injEq, Prod.mk.injEq] at hs
    obtain ⟨rfl, rfl, _⟩ := hs
    exact ⟨by simpa using hl, mem_set hb h, trivial⟩
  | build a =>
    dsimp only at hs
    split at hs
    · rename_i pk hg
      simp only [Res.ok.injEq, Prod.mk.injEq] at hs
      obtain ⟨rfl, rfl, _⟩ := hs
      have hlt := (List.getElem?_eq_some_iff.mp hg).1
      refine ⟨hl, hb, by simp; omega, ?_⟩
      intro x hx
      rcases List.mem_append.mp hx with h' | h'
      · exact h.2 x h'
      · rw [List.mem_singleton] at h'; subst h'; exact hb x (List.mem_of_getElem? hg)
    · rename_i hg
      simp only [Res.ok.injEq, Prod.mk.injEq] at hs
      obtain ⟨rfl, rfl, _⟩ := hs
      have hge := List.getElem?_eq_none_iff.mp hg
      refine ⟨hl, hb, a, ?_, h.2, ?_⟩
      · have := h.1; omega
      · have := h.1
        congr 1; omega
  | done script =>
    simp only [Res.ok.injEq, Prod.mk.injEq] at hs
    obtain ⟨rfl, rfl, _⟩ := hs
    exact ⟨hl, hb, h⟩

theorem step_cases {alg : SortAlg} {m : Int} (σ : Sys alg) (t : Nat) :
    ((step alg m σ t).keys = σ.keys ∧ (step alg m σ t).threads = σ.threads ∧ (step alg m σ t).log = σ.log) ∨
    ∃ pc b pc' acc, σ.threads[t]? = some pc ∧ pcStep alg m σ.keys pc = .ok (b, pc', acc) ∧
      step alg m σ t = { keys := b, threads := σ.threads.set t pc', crashed := false, log := σ.log ++ acc.map fun a => ⟨t, a.1, a.2⟩ } := by
  unfold step
  split_ifs with hc
  · exact Or.inl ⟨rfl, rfl, rfl⟩
  · rcases ht : σ.threads[t]? with _ | pc
    · exact Or.inl ⟨rfl, rfl, rfl⟩
    · dsimp only
      rcases hp : pcStep alg m σ.keys pc with ⟨b, pc', acc⟩ | _ | _
      · exact Or.inr ⟨pc, b, pc', acc, rfl, hp, rfl⟩
      · exact Or.inl ⟨rfl, rfl, rfl⟩
      · exact Or.inl ⟨rfl, rfl, rfl⟩

theorem From.step {alg : SortAlg} {m : Int} {K : List Bytes} {σ : Sys alg} (h : From alg m K σ) (t : Nat) : From alg m K (step alg m σ t) := by
  obtain ⟨hl, hk, hp⟩ := h
  rcases step_cases (m := m) σ t with ⟨h1, h2, _⟩ | ⟨pc, b, pc', acc, ht, hs, e⟩
  · unfold From; rw [h1, h2]; exact ⟨hl, hk, hp⟩
  · obtain ⟨a1, a2, a3⟩ := from_step hl hk (hp pc (List.mem_of_getElem? ht)) hs
    rw [e]
    refine ⟨a1, a2, ?_⟩
    intro p hpm
    rcases List.mem_or_eq_of_mem_set hpm with h | rfl
    · exact hp p h
    · exact a3

theorem From.run {alg : SortAlg} {m : Int} {K : List Bytes} (sched : List Nat) : ∀ {σ : Sys alg}, From alg m K σ → From alg m K (run alg m σ sched) := by
  induction sched with
  | nil => intro σ h; exact h
  | cons t ts ih => intro σ h; exact ih (h.step t)

/-! ## The header is always written -/

/-- A goroutine past the sort has written the header. -/
def Wrote {alg : SortAlg} (σ : Sys alg) : Prop :=
  ∀ t pc, σ.threads[t]? = some pc → ((∃ acc, pc = .build acc) ∨ ∃ s, pc = .done s) → (⟨t, true, .header⟩ : Access) ∈ σ.log

theorem Wrote.step {alg : SortAlg} {m : Int} {σ : Sys alg} (h : Wrote σ) (t : Nat) : Wrote (step alg m σ t) := by
  rcases step_cases (m := m) σ t with ⟨_, h2, h3⟩ | ⟨pc, b, pc', acc, ht, hs, e⟩
  · unfold Wrote; rw [h2, h3]; exact h
  · rw [e]
    intro t' p hp hd
    dsimp only at hp ⊢
    have hlt : t < σ.threads.length := (List.getElem?_eq_some_iff.mp ht).1
    by_cases htt : t' = t
    · subst htt
      rw [List.getElem?_set_self hlt, Option.some.injEq] at hp
      subst hp
      by_cases hb : (∃ acc, pc = .build acc) ∨ ∃ s, pc = .done s
      · exact List.mem_append_left _ (h t' pc ht hb)
      · apply List.mem_append_right
        unfold pcStep at hs
        cases pc with
        | sorting s =>
          dsimp only at hs
          split at hs
          · simp only [Res.ok.injEq, Prod.mk.injEq] at hs
            obtain ⟨_, _, rfl⟩ := hs
            simp
          · obtain ⟨x, hx, hs⟩ := Res.bind_eq_ok.mp hs
            simp only [Res.pure_eq, Res.ok.injEq, Prod.mk.injEq] at hs
            obtain ⟨_, rfl, _⟩ := hs
            simp at hd
          · obtain ⟨x, hx, hs⟩ := Res.bind_eq_ok.mp hs
            simp only [Res.pure_eq, Res.ok.injEq, Prod.mk.injEq] at hs
            obtain ⟨_, rfl, _⟩ := hs
            simp at hd
        | less s j x =>
          obtain ⟨y, hy, hs⟩ := Res.bind_eq_ok.mp hs
          simp only [Res.pure_eq, Res.ok.injEq, Prod.mk.injEq] at hs
          obtain ⟨_, rfl, _⟩ := hs
          simp at hd
        | swapRead s i j x =>
          obtain ⟨y, hy, hs⟩ := Res.bind_eq_ok.mp hs
          simp only [Res.pure_eq, Res.ok.injEq, Prod.mk.injEq] at hs
          obtain ⟨_, rfl, _⟩ := hs
          simp at hd
        | swapFirst s i j x y =>
          simp only [Res.ok.injEq, Prod.mk.injEq] at hs
          obtain ⟨_, rfl, _⟩ := hs
          simp at hd
        | swapSecond s i y =>
          simp only [Res.ok.injEq, Prod.mk.injEq] at hs
          obtain ⟨_, rfl, _⟩ := hs
          simp at hd
        | build a => exact absurd (Or.inl ⟨a, rfl⟩) hb
        | done s => exact absurd (Or.inr ⟨s, rfl⟩) hb
    · rw [List.getElem?_set_ne (Ne.symm htt)] at hp
      exact List.mem_append_left _ (h t' p hp hd)

theorem Wrote.run {alg : SortAlg} {m : Int} (sched : List Nat) : ∀ {σ : Sys alg}, Wrote σ → Wrote (run alg m σ sched) := by
  induction sched with
  | nil => intro σ h; exact h
  | cons t ts ih => intro σ h; exact ih (h.step t)

end Verif.Redeem
