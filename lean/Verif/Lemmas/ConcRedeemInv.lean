import Verif.Props.ConcRedeem
import Mathlib.Data.Finset.Card
import Mathlib.Data.Finset.Range
/-! # Invariants of goroutines that ask for a redeem script while others add keys -/
namespace Verif.Keys
open Verif Verif.Spec Verif.Props
open Verif.Build (Pool Loc Access)
open Verif.Obj (RefSlice)
open Verif.Redeem (SortAlg)

/-- A header that shows between `lo` and `hi` keys, all of them in `K`. -/
structure OK (K : List Bytes) (lo hi : Nat) (P : Pool Bytes) (h : RefSlice) : Prop where
  ge : lo ≤ h.len
  le : h.len ≤ hi
  inside : Inside P h
  mem : ∀ i, i < h.len → (P.arrays.getD h.arr []).getD i default ∈ K

/-- The arrays only get longer, and what changes is in `K`. -/
def Ext (K : List Bytes) (P P' : Pool Bytes) : Prop :=
  ∀ a, (P.arrays.getD a []).length ≤ (P'.arrays.getD a []).length ∧
    ∀ i, i < (P.arrays.getD a []).length → (P'.arrays.getD a []).getD i default ∈ K ∨ (P'.arrays.getD a []).getD i default = (P.arrays.getD a []).getD i default

variable {K : List Bytes} {lo hi hi' : Nat} {P P' : Pool Bytes} {h : RefSlice}

theorem Ext.refl (K : List Bytes) (P : Pool Bytes) : Ext K P P := fun _ => ⟨Nat.le_refl _, fun _ _ => Or.inr rfl⟩

theorem Ext.of_arrays {P P' : Pool Bytes} (e : P'.arrays = P.arrays) : Ext K P P' := fun a => by rw [e]; exact ⟨Nat.le_refl _, fun _ _ => Or.inr rfl⟩

theorem OK.ext (k : OK K lo hi P h) (e : Ext K P P') (hle : hi ≤ hi') : OK K lo hi' P' h := by
  obtain ⟨e1, e2⟩ := e h.arr
  refine ⟨k.ge, Nat.le_trans k.le hle, ⟨k.inside.1, Nat.le_trans k.inside.2 e1⟩, ?_⟩
  intro i hi
  rcases e2 i (by have := k.inside.1; have := k.inside.2; omega) with h1 | h1
  · exact h1
  · rw [h1]; exact k.mem i hi

theorem OK.elems_mem (k : OK K lo hi P h) : ∀ x ∈ P.elems h, x ∈ K := by
  intro x hx
  obtain ⟨i, hi, e⟩ := List.mem_iff_getElem.mp hx
  have hl := elems_len k.inside
  have := k.mem i (by omega)
  unfold Pool.elems at e hi
  rw [List.length_take] at hi
  rw [List.getElem_take] at e
  rw [List.getD_eq_getElem?_getD, List.getElem?_eq_getElem (by omega), Option.getD_some, e] at this
  exact this

theorem ext_put {b : List Bytes} (hb : b.length ≤ (P.arrays.getD h.arr []).length) (hm : ∀ x ∈ b, x ∈ K) : Ext K P (put P h b) := by
  intro a
  refine ⟨by rw [put_length hb], ?_⟩
  intro i hi
  rw [put_getD]
  split_ifs with c
  · by_cases hlt : i < b.length
    · left
      rw [List.getD_eq_getElem?_getD, List.getElem?_append_left hlt, List.getElem?_eq_getElem hlt, Option.getD_some]
      exact hm _ (List.getElem_mem _)
    · right
      rw [List.getD_eq_getElem?_getD, List.getElem?_append_right (by omega), List.getElem?_drop, List.getD_eq_getElem?_getD, c.1]
      congr 2
      omega
  · exact Or.inr rfl

/-! ## The goroutines that add -/

def AOK (K : List Bytes) (lo hi : Nat) (P : Pool Bytes) (passed : Prop) : Build.PC Bytes → Prop
  | .load => ¬ passed
  | .place s => ¬ passed ∧ OK K lo hi P s
  | .copy s acc => ¬ passed ∧ OK K lo hi P s ∧ acc.length ≤ s.len ∧ ∀ x ∈ acc, x ∈ K
  | .store h => OK K lo hi P h
  | .done => True

theorem AOK.ext {passed passed' : Prop} {pc : Build.PC Bytes} (k : AOK K lo hi P passed pc) (e : Ext K P P') (hle : hi ≤ hi') (hp : passed' → passed) : AOK K lo hi' P' passed' pc := by
  cases pc with
  | load => exact fun h => k (hp h)
  | place s => exact ⟨fun h => k.1 (hp h), k.2.ext e hle⟩
  | copy s acc => exact ⟨fun h => k.1 (hp h), k.2.1.ext e hle, k.2.2⟩
  | store h => exact OK.ext k e hle
  | done => trivial

/-- One step of a goroutine that adds: either it has not passed, or it is counted now. -/
theorem add_step (g : Nat → Nat) {e : Bytes} (he : e ∈ K) {passed : Prop} {pc : Build.PC Bytes} (hh : OK K lo hi P P.hdr) (k : AOK K lo hi P passed pc) :
    let r := Build.pcStep g 0 e P pc
    Ext K P r.1 ∧
    ((OK K lo hi r.1 r.1.hdr ∧ AOK K lo hi r.1 passed r.2.1) ∨ (¬ passed ∧ OK K lo (hi + 1) r.1 r.1.hdr ∧ AOK K lo (hi + 1) r.1 True r.2.1)) := by
  cases pc with
  | load => exact ⟨Ext.refl K P, Or.inl ⟨hh, k, hh⟩⟩
  | place s =>
    obtain ⟨k1, k2⟩ := k
    simp only [Build.pcStep]
    split_ifs with c
    · have ex : Ext K P { P with arrays := P.arrays.set s.arr ((P.arrays.getD s.arr []).set s.len e) } := by
        intro a
        simp only [List.getD_eq_getElem?_getD, List.getElem?_set]
        by_cases ca : s.arr = a
        · subst ca
          by_cases c2 : s.arr < P.arrays.length
          · simp only [c2, if_true, Option.getD_some, List.length_set, Nat.le_refl, true_and]
            intro i hi
            by_cases ci : s.len = i
            · subst ci
              left
              rw [List.getElem?_set_self hi, Option.getD_some]
              exact he
            · right
              rw [List.getElem?_set_ne ci]
          · simp [c2]
        · simp [ca]
      have hlt : s.arr < P.arrays.length := by
        by_contra hc
        have h2 := k2.inside.2
        rw [List.getD_eq_getElem?_getD, List.getElem?_eq_none (by omega)] at h2
        simp at h2
        omega
      refine ⟨ex, Or.inr ⟨k1, hh.ext ex (Nat.le_succ _), ?_⟩⟩
      have k3 := k2.ext ex (Nat.le_refl _)
      refine ⟨by have := k2.ge; dsimp only; omega, by have := k2.le; dsimp only; omega, ⟨c, k3.inside.2⟩, ?_⟩
      intro i hi
      dsimp only at hi ⊢
      by_cases ci : i = s.len
      · subst ci
        have hl : s.len < (P.arrays.getD s.arr []).length := by have := k2.inside.2; omega
        rw [List.getD_eq_getElem?_getD, List.getD_eq_getElem?_getD, List.getElem?_set_self hlt, Option.getD_some, List.getElem?_set_self hl, Option.getD_some]
        exact he
      · exact k3.mem i (by omega)
    · exact ⟨Ext.refl K P, Or.inl ⟨hh, k1, k2, by simp, by simp⟩⟩
  | copy s acc =>
    obtain ⟨k1, k2, k3, k4⟩ := k
    simp only [Build.pcStep]
    split_ifs with c
    · refine ⟨Ext.refl K P, Or.inl ⟨hh, k1, k2, by simp; omega, ?_⟩⟩
      intro x hx
      rcases List.mem_append.mp hx with hx | hx
      · exact k4 x hx
      · rw [List.mem_singleton.mp hx]
        exact k2.mem _ c
    · have ex : Ext K P { P with arrays := P.arrays ++ [acc ++ [e] ++ List.replicate (g s.len) default] } := by
        intro a
        simp only [List.getD_eq_getElem?_getD]
        by_cases ca : a < P.arrays.length
        · rw [List.getElem?_append_left ca]
          exact ⟨Nat.le_refl _, fun _ _ => Or.inr rfl⟩
        · rw [List.getElem?_eq_none (l := P.arrays) (by omega)]
          simp
      refine ⟨ex, Or.inr ⟨k1, hh.ext ex (Nat.le_succ _), ?_⟩⟩
      have hacc : acc.length = s.len := by omega
      have hget : (P.arrays ++ [acc ++ [e] ++ List.replicate (g s.len) default]).getD P.arrays.length [] = acc ++ [e] ++ List.replicate (g s.len) default := by
        rw [List.getD_eq_getElem?_getD, List.getElem?_append_right (Nat.le_refl _)]
        simp
      refine ⟨by have := k2.ge; dsimp only; omega, by have := k2.le; dsimp only; omega, ⟨by dsimp only; omega, ?_⟩, ?_⟩
      · dsimp only
        rw [hget]
        simp
        omega
      · intro i hi
        dsimp only at hi ⊢
        rw [hget, List.getD_eq_getElem?_getD, List.getElem?_append_left (by simp; omega)]
        rw [List.getElem?_eq_getElem (by simp; omega), Option.getD_some]
        have := List.getElem_mem (l := acc ++ [e]) (n := i) (by simp; omega)
        rcases List.mem_append.mp this with hx | hx
        · exact k4 _ hx
        · rw [List.mem_singleton.mp hx]; exact he
  | store s =>
    have ex : Ext K P { P with hdr := s } := Ext.of_arrays rfl
    exact ⟨ex, Or.inl ⟨OK.ext k ex (Nat.le_refl _), trivial⟩⟩
  | done => exact ⟨Ext.refl K P, Or.inl ⟨hh, trivial⟩⟩

/-! ## The calls -/

/-- The keys that a goroutine in the sort holds are in `K`. -/
def Vals (K : List Bytes) {St : Type} : Redeem.PC St → Prop
  | .sorting _ => True
  | .less _ _ x => x ∈ K
  | .swapRead _ _ _ x => x ∈ K
  | .swapFirst _ _ _ x y => x ∈ K ∧ y ∈ K
  | .swapSecond _ _ y => y ∈ K
  | .build _ => False
  | .done _ => False

theorem mem_of_index {b : List Bytes} {i : Nat} {x : Bytes} (h : index b i = .ok x) : x ∈ b := List.mem_of_getElem? (Redeem.index_ok.mp h)

theorem vals_step {alg : SortAlg} {m : Int} {b b' : List Bytes} {pc pc' : Redeem.PC alg.St} {acc : List (Bool × Redeem.Loc)} (hb : ∀ x ∈ b, x ∈ K) (hv : Vals K pc) (hn : stopped alg pc = false)
    (hs : Redeem.pcStep alg m b pc = .ok (b', pc', acc)) : Vals K pc' ∧ (∀ x ∈ b', x ∈ K) ∧ b'.length = b.length := by
  unfold Redeem.pcStep at hs
  cases pc with
  | sorting s =>
    dsimp only at hs
    split at hs
    · rename_i ho
      simp [stopped, ho] at hn
    · obtain ⟨x, hx, hs⟩ := Res.bind_eq_ok.mp hs
      cases hs
      exact ⟨hb x (mem_of_index hx), hb, rfl⟩
    · obtain ⟨x, hx, hs⟩ := Res.bind_eq_ok.mp hs
      cases hs
      exact ⟨hb x (mem_of_index hx), hb, rfl⟩
  | less s j x =>
    obtain ⟨y, hy, hs⟩ := Res.bind_eq_ok.mp hs
    cases hs
    exact ⟨trivial, hb, rfl⟩
  | swapRead s i j x =>
    obtain ⟨y, hy, hs⟩ := Res.bind_eq_ok.mp hs
    cases hs
    exact ⟨⟨hv, hb y (mem_of_index hy)⟩, hb, rfl⟩
  | swapFirst s i j x y =>
    cases hs
    refine ⟨hv.2, ?_, by simp⟩
    intro z hz
    rcases List.mem_or_eq_of_mem_set hz with h | rfl
    · exact hb z h
    · exact hv.1
  | swapSecond s i y =>
    cases hs
    refine ⟨trivial, ?_, by simp⟩
    intro z hz
    rcases List.mem_or_eq_of_mem_set hz with h | rfl
    · exact hb z h
    · exact hv
  | build a => exact hv.elim
  | done s => exact hv.elim

/-- What a call knows. -/
def COK (alg : SortAlg) (m : Int) (K : List Bytes) (lo hi : Nat) (P : Pool Bytes) : CPC alg.St → Prop
  | .load => True
  | .sort h pc => OK K lo hi P h ∧ Vals K pc ∧ InsidePC alg h.len pc
  | .store h => OK K lo hi P h
  | .range => True
  | .walk h acc => OK K lo hi P h ∧ acc.length ≤ h.len ∧ ∀ x ∈ acc, x ∈ K
  | .count acc => lo ≤ acc.length ∧ acc.length ≤ hi ∧ ∀ x ∈ acc, x ∈ K
  | .done script => ∃ ks c, script = scriptSaying m ks c ∧ (∀ x ∈ ks, x ∈ K) ∧ (lo ≤ ks.length ∧ ks.length ≤ hi) ∧ lo ≤ c ∧ c ≤ hi

theorem COK.ext {alg : SortAlg} {m : Int} {c : CPC alg.St} (k : COK alg m K lo hi P c) (e : Ext K P P') (hle : hi ≤ hi') : COK alg m K lo hi' P' c := by
  cases c with
  | load => trivial
  | sort h pc => exact ⟨k.1.ext e hle, k.2⟩
  | store h => exact OK.ext k e hle
  | range => trivial
  | walk h acc => exact ⟨k.1.ext e hle, k.2⟩
  | count acc => exact ⟨k.1, Nat.le_trans k.2.1 hle, k.2.2⟩
  | done script =>
    obtain ⟨ks, c, h1, h2, h3, h4, h5⟩ := k
    exact ⟨ks, c, h1, h2, ⟨h3.1, by omega⟩, h4, by omega⟩

theorem not_beyond {alg : SortAlg} (hin : StaysInside alg) {n : Nat} {pc : Redeem.PC alg.St} (hi : InsidePC alg n pc) : ¬ ReadsBeyond alg n pc := by
  intro h3
  cases pc with
  | sorting s =>
    obtain ⟨i, j, ho | ho, hle⟩ := h3
    · have := (hin _ s hi).1 i j ho; omega
    · have := (hin _ s hi).2 i j ho; omega
  | less s j x =>
    obtain ⟨hr, i, ho⟩ := hi
    have := (hin _ s hr).1 i j ho
    simp only [ReadsBeyond] at h3; omega
  | swapRead s i j x =>
    have := (hin _ s hi.1).2 i j hi.2
    simp only [ReadsBeyond] at h3; omega
  | swapFirst | swapSecond | build | done => exact h3

/-- One step of a call: it does not panic, and keeps what is known. -/
theorem call_step {alg : SortAlg} (hin : StaysInside alg) {m : Int} {c : CPC alg.St} (hh : OK K lo hi P P.hdr) (k : COK alg m K lo hi P c) :
    ∃ P' c' acc, cstep alg m P c = some (P', c', acc) ∧ Ext K P P' ∧ OK K lo hi P' P'.hdr ∧ COK alg m K lo hi P' c' := by
  cases c with
  | load => exact ⟨_, _, _, rfl, Ext.refl K P, hh, hh, trivial, CanReach.init⟩
  | sort h pc =>
    obtain ⟨k1, k2, k3⟩ := k
    have hl := elems_len k1.inside
    by_cases hst : stopped alg pc = true
    · refine ⟨P, .store h, [], by simp only [cstep, hst, if_true], Ext.refl K P, hh, k1⟩
    · have hst : stopped alg pc = false := by simpa using hst
      have hnb := not_beyond hin k3
      rw [← hl, ← pcStep_panic_iff alg m] at hnb
      simp only [ne_eq, not_forall, not_not] at hnb
      obtain ⟨⟨b, pc', acc⟩, hs⟩ := hnb
      obtain ⟨v1, v2, v3⟩ := vals_step k1.elems_mem k2 hst hs
      have hle : b.length ≤ (P.arrays.getD h.arr []).length := by rw [v3, hl]; have := k1.inside.1; have := k1.inside.2; omega
      have ex : Ext K P (put P h b) := ext_put hle v2
      refine ⟨put P h b, .sort h pc', acc.map fun a => (a.1, place h a.2), ?_, ex, hh.ext ex (Nat.le_refl _), k1.ext ex (Nat.le_refl _), v1, k3.step hs⟩
      simp only [cstep, hst, Bool.false_eq_true, if_false, hs]
  | store h =>
    have ex : Ext K P { P with hdr := h } := Ext.of_arrays rfl
    exact ⟨_, _, _, rfl, ex, OK.ext k ex (Nat.le_refl _), trivial⟩
  | range => exact ⟨_, _, _, rfl, Ext.refl K P, hh, hh, by simp, by simp⟩
  | walk h acc =>
    obtain ⟨k1, k2, k3⟩ := k
    by_cases c : acc.length < h.len
    · refine ⟨P, .walk h (acc ++ [(P.arrays.getD h.arr []).getD acc.length default]), [(false, .elem 0 h.arr acc.length)], by simp only [cstep, c, if_true], Ext.refl K P, hh, k1, by simp; omega, ?_⟩
      intro x hx
      rcases List.mem_append.mp hx with hx | hx
      · exact k3 x hx
      · rw [List.mem_singleton.mp hx]; exact k1.mem _ c
    · refine ⟨P, .count acc, [], by simp only [cstep, c, if_false], Ext.refl K P, hh, ?_, ?_, k3⟩
      · have := k1.ge; omega
      · have := k1.le; omega
  | count acc =>
    refine ⟨_, _, _, rfl, Ext.refl K P, hh, acc, P.hdr.len, encodeRedeem_eq _ _ _, k.2.2, ⟨k.1, k.2.1⟩, hh.ge, hh.le⟩
  | done script => exact ⟨_, _, _, rfl, Ext.refl K P, hh, k⟩

/-! ## The program -/

/-- The invariant; `S` are the goroutines that have made a header with their key. -/
structure Inv (alg : SortAlg) (m : Int) (K : List Bytes) (lo n : Nat) (S : Finset Nat) (s : Sys alg) : Prop where
  calm : s.crashed = false
  num : s.app.threads.length = n
  sub : ∀ t ∈ S, t < n
  hdr : OK K lo (lo + S.card) (s.app.pool 0) (s.app.pool 0).hdr
  thr : ∀ t th, s.app.threads[t]? = some th → th.field = 0 ∧ th.elem ∈ K ∧ AOK K lo (lo + S.card) (s.app.pool 0) (t ∈ S) th.pc
  cal : ∀ c ∈ s.calls, COK alg m K lo (lo + S.card) (s.app.pool 0) c

theorem Inv.step {alg : SortAlg} (hin : StaysInside alg) {m : Int} (g : Nat → Nat) {n : Nat} {S : Finset Nat} {s : Sys alg} (I : Inv alg m K lo n S s) (t : Nat) :
    ∃ S', Inv alg m K lo n S' (step alg m g s t) := by
  unfold Keys.step
  rw [if_neg (by simp [I.calm])]
  split_ifs with ct
  · have hth : s.app.threads[t]? = some s.app.threads[t] := List.getElem?_eq_getElem ct
    generalize s.app.threads[t] = th at hth
    obtain ⟨f0, ek, ak⟩ := I.thr t th hth
    obtain ⟨ex, hc⟩ := add_step g ek I.hdr ak
    have e : Build.step g s.app t = { pool := fun f => if f = 0 then (Build.pcStep g 0 th.elem (s.app.pool 0) th.pc).1 else s.app.pool f
                                      threads := s.app.threads.set t { th with pc := (Build.pcStep g 0 th.elem (s.app.pool 0) th.pc).2.1 }
                                      log := s.app.log ++ (Build.pcStep g 0 th.elem (s.app.pool 0) th.pc).2.2.map fun a => ⟨t, a.1, a.2⟩ } := by
      unfold Build.step
      rw [hth]
      dsimp only
      rw [f0]
    rw [e]
    generalize Build.pcStep g 0 th.elem (s.app.pool 0) th.pc = r at ex hc
    rcases hc with ⟨c1, c2⟩ | ⟨c0, c1, c2⟩
    · refine ⟨S, I.calm, by simpa using I.num, I.sub, c1, ?_, ?_⟩
      · intro u thu hu
        by_cases hut : u = t
        · subst hut
          rw [List.getElem?_set_self ct, Option.some.injEq] at hu
          subst hu
          exact ⟨f0, ek, c2⟩
        · rw [List.getElem?_set_ne (Ne.symm hut)] at hu
          obtain ⟨a1, a2, a3⟩ := I.thr u thu hu
          exact ⟨a1, a2, a3.ext ex (Nat.le_refl _) id⟩
      · intro c hc
        exact (I.cal c hc).ext ex (Nat.le_refl _)
    · have hcard : lo + (insert t S).card = lo + S.card + 1 := by rw [Finset.card_insert_of_notMem c0]; omega
      refine ⟨insert t S, I.calm, by simpa using I.num, ?_, by rw [hcard]; exact c1, ?_, ?_⟩
      · intro u hu
        rcases Finset.mem_insert.mp hu with rfl | hu
        · rw [← I.num]; exact ct
        · exact I.sub u hu
      · rw [hcard]
        intro u thu hu
        by_cases hut : u = t
        · subst hut
          rw [List.getElem?_set_self ct, Option.some.injEq] at hu
          subst hu
          refine ⟨f0, ek, ?_⟩
          exact c2.ext (Ext.refl K _) (Nat.le_refl _) (fun _ => trivial)
        · rw [List.getElem?_set_ne (Ne.symm hut)] at hu
          obtain ⟨a1, a2, a3⟩ := I.thr u thu hu
          refine ⟨a1, a2, a3.ext ex (Nat.le_succ _) ?_⟩
          intro h
          exact (Finset.mem_insert.mp h).resolve_left hut
      · rw [hcard]
        intro c hc
        exact (I.cal c hc).ext ex (Nat.le_succ _)
  · rcases hc : s.calls[t - s.app.threads.length]? with _ | c
    · exact ⟨S, I⟩
    · obtain ⟨P', c', acc, e, ex, h1, h2⟩ := call_step hin I.hdr (I.cal c (List.mem_of_getElem? hc))
      dsimp only
      rw [e]
      refine ⟨S, I.calm, I.num, I.sub, h1, ?_, ?_⟩
      · intro u thu hu
        obtain ⟨a1, a2, a3⟩ := I.thr u thu hu
        exact ⟨a1, a2, a3.ext ex (Nat.le_refl _) id⟩
      · intro x hx
        rcases List.mem_or_eq_of_mem_set hx with hx | rfl
        · exact (I.cal x hx).ext ex (Nat.le_refl _)
        · exact h2

theorem inv_run {alg : SortAlg} (hin : StaysInside alg) (m : Int) (g : Nat → Nat) (p : Pool Bytes) (ok : SliceOK p) (added : List Bytes) (n : Nat) (sch : List Nat) :
    ∃ S, Inv alg m (p.val ++ added) p.val.length added.length S (run alg m g (start alg p added n) sch) := by
  induction sch using List.reverseRecOn with
  | nil =>
    have hl : p.val.length = p.hdr.len := elems_len (P := p) ok
    refine ⟨∅, rfl, by simp [run, start, Build.start], by simp, ⟨by rw [hl]; exact Nat.le_refl _, by rw [hl]; exact Nat.le_refl _, ok, ?_⟩, ?_, ?_⟩
    · intro i hi
      change (p.arrays.getD p.hdr.arr []).getD i default ∈ _
      change i < p.hdr.len at hi
      refine List.mem_append_left _ ?_
      have hlt : i < (p.arrays.getD p.hdr.arr []).length := by have := ok.1; have := ok.2; omega
      have hm : p.val[i]? = some ((p.arrays.getD p.hdr.arr [])[i]) := by
        unfold Pool.val Pool.elems
        rw [List.getElem?_take_of_lt hi, List.getElem?_eq_getElem hlt]
      rw [List.getD_eq_getElem?_getD, List.getElem?_eq_getElem hlt, Option.getD_some]
      exact List.mem_of_getElem? hm
    · intro t th ht
      change (start alg p added n).app.threads[t]? = _ at ht
      rw [threads_start] at ht
      obtain ⟨k, hk, rfl⟩ := Option.map_eq_some_iff.mp ht
      exact ⟨rfl, List.mem_append_right _ (List.mem_of_getElem? hk), by simp [AOK]⟩
    · intro c hc
      rw [List.eq_of_mem_replicate hc]
      trivial
  | append_singleton l t ih =>
    obtain ⟨S, I⟩ := ih
    rw [run_append]
    exact I.step hin g t

theorem Inv.card {alg : SortAlg} {m : Int} {n : Nat} {S : Finset Nat} {s : Sys alg} (I : Inv alg m K lo n S s) : S.card ≤ n := by
  have : S ⊆ Finset.range n := fun t ht => Finset.mem_range.mpr (I.sub t ht)
  simpa using Finset.card_le_card this

end Verif.Keys
