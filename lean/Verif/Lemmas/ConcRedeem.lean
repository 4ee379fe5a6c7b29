import Verif.Model.ConcRedeem
import Verif.Props.RedeemConcSafe
import Verif.Props.ConcMixSign
/-! # Lemmas about goroutines that ask for a redeem script while others add keys -/
namespace Verif.Keys
open Verif Verif.Spec
open Verif.Build (Pool Loc Access)
open Verif.Obj (RefSlice)
open Verif.Redeem (SortAlg sortAlone)

/-! ## The array a header shows -/

/-- The header lies inside of its array. -/
def Inside (P : Pool Bytes) (h : RefSlice) : Prop := h.len ≤ h.cap ∧ h.cap ≤ (P.arrays.getD h.arr []).length

theorem elems_len {P : Pool Bytes} {h : RefSlice} (hi : Inside P h) : (P.elems h).length = h.len := by
  unfold Pool.elems
  rw [List.length_take]
  have := hi.1; have := hi.2
  omega

theorem put_getD (P : Pool Bytes) (h : RefSlice) (b : List Bytes) (a : Nat) :
    (put P h b).arrays.getD a [] = if a = h.arr ∧ a < P.arrays.length then b ++ (P.arrays.getD h.arr []).drop b.length else P.arrays.getD a [] := by
  unfold put
  simp only [List.getD_eq_getElem?_getD, List.getElem?_set]
  by_cases c : h.arr = a
  · subst c
    by_cases c2 : h.arr < P.arrays.length <;> simp [c2]
  · simp [c, Ne.symm c]

theorem put_length {P : Pool Bytes} {h : RefSlice} {b : List Bytes} (hb : b.length ≤ (P.arrays.getD h.arr []).length) (a : Nat) :
    ((put P h b).arrays.getD a []).length = (P.arrays.getD a []).length := by
  rw [put_getD]
  split_ifs with c
  · rw [List.length_append, List.length_drop, c.1]; omega
  · rfl

theorem put_elems {P : Pool Bytes} {h : RefSlice} {b : List Bytes} (hi : Inside P h) (hb : b.length = h.len) : (put P h b).elems h = b := by
  unfold Pool.elems
  rw [put_getD]
  split_ifs with c
  · rw [← hb, List.take_left]
  · have hz : h.len = 0 := by
      have hlt : ¬ h.arr < P.arrays.length := fun hh => c ⟨rfl, hh⟩
      have := hi.1; have h2 := hi.2
      rw [List.getD_eq_getElem?_getD, List.getElem?_eq_none (by omega)] at h2
      simp at h2
      omega
    rw [hz, List.take_zero, List.length_eq_zero_iff.mp (hb.trans hz)]

theorem put_put {P : Pool Bytes} {h : RefSlice} {b c : List Bytes} (hl : b.length = c.length) : put (put P h b) h c = put P h c := by
  have e := put_getD P h b h.arr
  by_cases ha : h.arr < P.arrays.length
  · rw [if_pos ⟨rfl, ha⟩] at e
    unfold put at *
    rw [e]
    simp only [List.set_set, Pool.mk.injEq, and_true]
    congr 2
    rw [← hl, List.drop_left]
  · unfold put at *
    simp only [List.set_eq_of_length_le (Nat.le_of_not_lt ha)]

theorem put_same {P : Pool Bytes} {h : RefSlice} (hi : Inside P h) : put P h (P.elems h) = P := by
  have hl := elems_len hi
  unfold put
  rw [hl]
  unfold Pool.elems
  rw [List.take_append_drop]
  by_cases ha : h.arr < P.arrays.length
  · rw [List.getD_eq_getElem?_getD, List.getElem?_eq_getElem ha, Option.getD_some, List.set_getElem_self]
  · rw [List.set_eq_of_length_le (Nat.le_of_not_lt ha)]

theorem Inside.put {P : Pool Bytes} {h k : RefSlice} {b : List Bytes} (hi : Inside P k) (hb : b.length ≤ (P.arrays.getD h.arr []).length) : Inside (put P h b) k :=
  ⟨hi.1, by rw [put_length hb]; exact hi.2⟩

/-! ## A call that nobody interrupts -/

/-- Steps of one call, with the arrays before and after. -/
inductive Goes (alg : SortAlg) (m : Int) : Pool Bytes → CPC alg.St → Pool Bytes → CPC alg.St → Prop
  | refl {P c} : Goes alg m P c P c
  | step {P c P1 c1 acc P' c'} : cstep alg m P c = some (P1, c1, acc) → Goes alg m P1 c1 P' c' → Goes alg m P c P' c'

theorem Goes.trans {alg : SortAlg} {m : Int} {P P1 P2 : Pool Bytes} {c c1 c2 : CPC alg.St} (h : Goes alg m P c P1 c1) (k : Goes alg m P1 c1 P2 c2) : Goes alg m P c P2 c2 := by
  induction h with
  | refl => exact k
  | step e _ ih => exact .step e (ih k)

theorem Goes.one {alg : SortAlg} {m : Int} {P P1 : Pool Bytes} {c c1 : CPC alg.St} {acc : List (Bool × Loc)} (h : cstep alg m P c = some (P1, c1, acc)) : Goes alg m P c P1 c1 := .step h .refl

theorem sort_one {alg : SortAlg} {m : Int} {P : Pool Bytes} {h : RefSlice} {pc pc' : Redeem.PC alg.St} {b : List Bytes} {acc : List (Bool × Redeem.Loc)} (hn : stopped alg pc = false)
    (hp : Redeem.pcStep alg m (P.elems h) pc = .ok (b, pc', acc)) : Goes alg m P (.sort h pc) (put P h b) (.sort h pc') := by
  refine Goes.one (acc := acc.map fun a => (a.1, place h a.2)) ?_
  simp only [cstep, hn, Bool.false_eq_true, if_false, hp]

theorem goes_sort {alg : SortAlg} (m : Int) (h : RefSlice) : ∀ (fuel : Nat) (s : alg.St) (P : Pool Bytes) (b' : List Bytes), Inside P h → sortAlone alg fuel s (P.elems h) = .ok (some b') →
    Goes alg m P (.sort h (.sorting s)) (put P h b') (.store h) := by
  have stop : ∀ (s : alg.St) (P : Pool Bytes), Inside P h → alg.op s = .stop → Goes alg m P (.sort h (.sorting s)) (put P h (P.elems h)) (.store h) := by
    intro s P hi ho
    rw [put_same hi]
    exact Goes.one (acc := []) (by simp [cstep, stopped, ho])
  intro fuel
  induction fuel with
  | zero =>
    intro s P b' hi hs
    unfold sortAlone at hs
    split at hs
    · rename_i ho
      simp at hs; subst hs
      exact stop s P hi ho
    · simp at hs
  | succ fuel ih =>
    intro s P b' hi hs
    have hl := elems_len hi
    unfold sortAlone at hs
    split at hs
    · rename_i ho
      simp at hs; subst hs
      exact stop s P hi ho
    · rename_i i j ho
      obtain ⟨yes, hy, hs⟩ := Res.bind_eq_ok.mp hs
      unfold Redeem.lessAt at hy
      obtain ⟨x, hx, hy⟩ := Res.bind_eq_ok.mp hy
      obtain ⟨y, hy', hy⟩ := Res.bind_eq_ok.mp hy
      rw [Res.pure_eq, Res.ok.injEq] at hy
      have s1 : Redeem.pcStep alg m (P.elems h) (.sorting s) = .ok (P.elems h, .less s j x, [(false, .elem i)]) := by
        unfold Redeem.pcStep; dsimp only; rw [ho]; dsimp only; rw [hx]; rfl
      have s2 : Redeem.pcStep alg m (P.elems h) (.less s j x) = .ok (P.elems h, .sorting (alg.next s yes), [(false, .elem j)]) := by
        unfold Redeem.pcStep; dsimp only; rw [hy', ← hy]; rfl
      have g1 := sort_one (h := h) (by simp [stopped, ho]) s1
      have g2 := sort_one (h := h) rfl s2
      rw [put_same hi] at g1 g2
      exact (g1.trans g2).trans (ih _ P b' hi hs)
    · rename_i i j ho
      obtain ⟨c, hc, hs⟩ := Res.bind_eq_ok.mp hs
      obtain ⟨x, y, hx, hy, rfl⟩ := Redeem.swapAt_eq hc
      have s1 : Redeem.pcStep alg m (P.elems h) (.sorting s) = .ok (P.elems h, .swapRead s i j x, [(false, .elem i)]) := by
        unfold Redeem.pcStep; dsimp only; rw [ho]; dsimp only; rw [Redeem.index_ok.mpr hx]; rfl
      have s2 : Redeem.pcStep alg m (P.elems h) (.swapRead s i j x) = .ok (P.elems h, .swapFirst s i j x y, [(false, .elem j)]) := by
        unfold Redeem.pcStep; dsimp only; rw [Redeem.index_ok.mpr hy]; rfl
      have g1 := sort_one (h := h) (by simp [stopped, ho]) s1
      have g2 := sort_one (h := h) rfl s2
      rw [put_same hi] at g1 g2
      have hle : (P.elems h).length ≤ (P.arrays.getD h.arr []).length := by have := hi.1; have := hi.2; omega
      have g3 : Goes alg m P (.sort h (.swapFirst s i j x y)) (put P h ((P.elems h).set j x)) (.sort h (.swapSecond s i y)) := sort_one (h := h) rfl (acc := [(true, .elem j)]) rfl
      have e3 : (put P h ((P.elems h).set j x)).elems h = (P.elems h).set j x := put_elems hi (by simp [hl])
      have g4 : Goes alg m (put P h ((P.elems h).set j x)) (.sort h (.swapSecond s i y)) (put P h (((P.elems h).set j x).set i y)) (.sort h (.sorting (alg.next s false))) := by
        have := sort_one (m := m) (P := put P h ((P.elems h).set j x)) (h := h) (pc := .swapSecond s i y) (alg := alg) rfl (acc := [(true, .elem i)]) rfl
        rwa [e3, put_put (by simp)] at this
      have hi' : Inside (put P h (((P.elems h).set j x).set i y)) h := hi.put (by simpa using hle)
      have e4 : (put P h (((P.elems h).set j x).set i y)).elems h = ((P.elems h).set j x).set i y := put_elems hi (by simp [hl])
      have g5 := ih (alg.next s false) (put P h (((P.elems h).set j x).set i y)) b' hi' (by rw [e4]; exact hs)
      have hlb : b'.length = h.len := by
        have := (Redeem.sortAlone_perm _ _ _ _ hs).length_eq
        simpa [hl] using this
      rw [put_put (by simp [hl, hlb])] at g5
      exact (((g1.trans g2).trans g3).trans g4).trans g5

theorem goes_walk {alg : SortAlg} (m : Int) (P : Pool Bytes) (h : RefSlice) (hl : (P.elems h).length = h.len) : ∀ k, k ≤ h.len → Goes alg m P (.walk h []) P (.walk h ((P.elems h).take k))
  | 0, _ => by rw [List.take_zero]; exact .refl
  | k + 1, hk => by
    refine (goes_walk m P h hl k (by omega)).trans (Goes.one (acc := [(false, .elem 0 h.arr k)]) ?_)
    have hlk : ((P.elems h).take k).length = k := by rw [List.length_take]; omega
    simp only [cstep, hlk]
    rw [if_pos (by omega), List.take_succ_eq_append_getElem (by omega)]
    congr 5
    unfold Pool.elems
    rw [List.getElem_take, List.getD_eq_getElem?_getD, List.getElem?_eq_getElem, Option.getD_some]

/-- From the loop on. -/
theorem goes_read {alg : SortAlg} (m : Int) (P : Pool Bytes) (h : RefSlice) (hl : (P.elems h).length = h.len) : Goes alg m P (.walk h []) P (.count (P.elems h)) := by
  have := goes_walk (alg := alg) m P h hl h.len (Nat.le_refl _)
  rw [List.take_of_length_le (by rw [hl])] at this
  refine this.trans (Goes.one (acc := []) ?_)
  simp [cstep, hl]

/-- To the store. -/
theorem goes_store {alg : SortAlg} (hs : Sorts alg) (m : Int) (P : Pool Bytes) (hi : Inside P P.hdr) : Goes alg m P .load (put P P.hdr (SortByteArrays P.val)) (.store P.hdr) := by
  obtain ⟨fuel, h⟩ := Redeem.sorts_result hs P.val
  have hl : P.val.length = P.hdr.len := elems_len hi
  rw [hl] at h
  exact .step (acc := [(false, .header 0)]) rfl (goes_sort m P.hdr fuel _ P _ hi h)

/-- A call that nobody interrupts. -/
theorem goes_done {alg : SortAlg} (hs : Sorts alg) (m : Int) (P : Pool Bytes) (hi : Inside P P.hdr) :
    Goes alg m P .load (put P P.hdr (SortByteArrays P.val)) (.done (GetRedeemScript ⟨m, P.val, []⟩).1) := by
  have hl : P.val.length = P.hdr.len := elems_len hi
  have hsl : (SortByteArrays P.val).length = P.hdr.len := by rw [← hl]; exact (Props.C05_sort_perm P.val).length_eq
  have hi' : Inside (put P P.hdr (SortByteArrays P.val)) P.hdr := hi.put (by have := hi.1; have := hi.2; omega)
  have he : (put P P.hdr (SortByteArrays P.val)).elems P.hdr = SortByteArrays P.val := put_elems hi hsl
  refine (goes_store hs m P hi).trans (.step (acc := [(true, .header 0)]) rfl (.step (acc := [(false, .header 0)]) rfl ?_))
  have g := goes_read (alg := alg) m (put P P.hdr (SortByteArrays P.val)) P.hdr (elems_len hi')
  rw [he] at g
  refine g.trans (Goes.one (acc := [(false, .header 0)]) ?_)
  have : (GetRedeemScript ⟨m, P.val, []⟩).1 = Redeem.encode m (SortByteArrays P.val) P.hdr.len := by
    rw [← hsl]; exact (Redeem.encode_sorted ⟨m, P.val, []⟩).symm
  rw [this]
  rfl

/-! ## Runs -/

theorem run_append (alg : SortAlg) (m : Int) (g : Nat → Nat) (s : Sys alg) (a b : List Nat) : run alg m g s (a ++ b) = run alg m g (run alg m g s a) b := by
  unfold run; rw [List.foldl_append]

theorem step_call {alg : SortAlg} {m : Int} (g : Nat → Nat) {s : Sys alg} {i : Nat} {c c' : CPC alg.St} {P : Pool Bytes} {acc : List (Bool × Loc)} (hc : s.crashed = false) (h : s.calls[i]? = some c)
    (e : cstep alg m (s.app.pool 0) c = some (P, c', acc)) :
    step alg m g s (s.app.threads.length + i) = { s with
      app := { s.app with pool := fun f => if f = 0 then P else s.app.pool f, log := s.app.log ++ acc.map fun a => ⟨s.app.threads.length + i, a.1, a.2⟩ }
      calls := s.calls.set i c' } := by
  unfold step
  rw [if_neg (by simp [hc]), if_neg (by omega), Nat.add_sub_cancel_left, h]
  dsimp only
  rw [e]

/-- A call makes its steps in a running program. -/
theorem goes_run {alg : SortAlg} {m : Int} (g : Nat → Nat) {P P' : Pool Bytes} {c c' : CPC alg.St} (h : Goes alg m P c P' c') : ∀ {s : Sys alg} {i : Nat}, s.crashed = false → s.app.pool 0 = P → s.calls[i]? = some c →
    ∃ N s', run alg m g s (List.replicate N (s.app.threads.length + i)) = s' ∧ s'.crashed = false ∧ s'.app.threads = s.app.threads ∧ s'.app.pool 0 = P' ∧ (∀ f, f ≠ 0 → s'.app.pool f = s.app.pool f) ∧ s'.calls = s.calls.set i c' := by
  induction h with
  | @refl P c =>
    intro s i hc hp h
    refine ⟨0, s, rfl, hc, rfl, hp, fun _ _ => rfl, ?_⟩
    obtain ⟨hlt, e⟩ := List.getElem?_eq_some_iff.mp h
    rw [← e, List.set_getElem_self]
  | @step P c P1 c1 acc P' c' e _ ih =>
    intro s i hc hp h
    rw [← hp] at e
    have hs := step_call g hc h e
    have hlt := (List.getElem?_eq_some_iff.mp h).1
    obtain ⟨N, s', k1, k2, k3, k4, k5, k6⟩ := ih (s := step alg m g s (s.app.threads.length + i)) (i := i) (by rw [hs]; exact hc) (by rw [hs]; simp) (by rw [hs]; simp [hlt])
    refine ⟨N + 1, s', ?_, k2, ?_, k4, ?_, ?_⟩
    · rw [List.replicate_succ]
      show run alg m g (step alg m g s _) _ = s'
      rw [hs] at k1 ⊢
      exact k1
    · rw [k3, hs]
    · intro f hf
      rw [k5 f hf, hs]
      simp [hf]
    · rw [k6, hs]; simp

/-- While the goroutines that add make their steps. -/
theorem run_adders {alg : SortAlg} {m : Int} (g : Nat → Nat) : ∀ (sch : List Nat) (s : Sys alg), s.crashed = false → (∀ t ∈ sch, t < s.app.threads.length) → run alg m g s sch = { s with app := Build.run g s.app sch }
  | [], s, _, _ => rfl
  | t :: sch, s, hc, ht => by
    have e : step alg m g s t = { s with app := Build.step g s.app t } := by
      unfold step
      rw [if_neg (by simp [hc]), if_pos (ht t (by simp))]
    have hl : (Build.step g s.app t).threads.length = s.app.threads.length := by
      unfold Build.step
      split
      · rfl
      · simp
    show run alg m g (step alg m g s t) sch = _
    rw [e, run_adders g sch { s with app := Build.step g s.app t } hc (fun u hu => by dsimp only; rw [hl]; exact ht u (by simp [hu]))]
    rfl

end Verif.Keys
