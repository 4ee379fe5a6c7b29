import Verif.Lemmas.ConcRedeemInv
/-!
# C124: what holds on every schedule, and when goroutines take turns
-/
namespace Verif.Props
open Verif Verif.Spec
open Verif.Build (Pool Loc Access)
open Verif.Obj (RefSlice)
open Verif.Redeem (SortAlg)

/-- C124: with a sort that stays inside of the array, on every schedule and at every moment: nobody panics; the redeem script has at least as many keys as at the start and at most all that are added besides, each of them one of those; and
every script that a call has returned lists keys among those, and claims a number of keys, with the same bounds. -/
theorem C124_members (alg : SortAlg) (hin : StaysInside alg) (m : Int) (g : Nat → Nat) (p : Pool Bytes) (ok : SliceOK p) (added : List Bytes) (n : Nat) (sch : List Nat) :
    let s := Keys.run alg m g (Keys.start alg p added n) sch
    s.crashed = false ∧
    (p.val.length ≤ s.keys.length ∧ s.keys.length ≤ p.val.length + added.length ∧ ∀ k ∈ s.keys, k ∈ p.val ∨ k ∈ added) ∧
    ∀ i script, GotScript s i script → ∃ keys c, script = scriptSaying m keys c ∧ (∀ k ∈ keys, k ∈ p.val ∨ k ∈ added) ∧
      (p.val.length ≤ keys.length ∧ keys.length ≤ p.val.length + added.length) ∧ p.val.length ≤ c ∧ c ≤ p.val.length + added.length := by
  intro s
  obtain ⟨S, I⟩ := Keys.inv_run hin m g p ok added n sch
  have hc := I.card
  have hl : s.keys.length = (s.app.pool 0).hdr.len := Keys.elems_len I.hdr.inside
  have h1 := I.hdr.ge
  have h2 := I.hdr.le
  change p.val.length ≤ (s.app.pool 0).hdr.len at h1
  change (s.app.pool 0).hdr.len ≤ p.val.length + S.card at h2
  refine ⟨I.calm, ⟨by omega, by omega, fun k hk => List.mem_append.mp (I.hdr.elems_mem k hk)⟩, ?_⟩
  intro i script hg
  obtain ⟨ks, c, a1, a2, a3, a4, a5⟩ := I.cal _ (List.mem_of_getElem? hg)
  exact ⟨ks, c, a1, fun k hk => List.mem_append.mp (a2 k hk), ⟨a3.1, by omega⟩, a4, by omega⟩

/-! ## Every goroutine returns -/

/-- An upper bound for the steps that an `AddPublicKey` has still to make, if no header shows more than `N` keys. -/
def addLeft (N : Nat) : Build.PC Bytes → Nat
  | .load => N + 4
  | .place _ => N + 3
  | .copy s acc => s.len - acc.length + 2
  | .store _ => 1
  | .done => 0

/-- The same for a `GetRedeemScript`. -/
def callLeft (N : Nat) : Keys.CPC Redeem.insertionSort.St → Nat
  | .load => 3 * N ^ 2 + 2 * N + 7
  | .sort h pc => insStepsLeft h.len pc + N + 4
  | .store _ => N + 4
  | .range => N + 3
  | .walk h acc => h.len - acc.length + 2
  | .count _ => 1
  | .done _ => 0

theorem addLeft_step (g : Nat → Nat) {K : List Bytes} {lo hi N : Nat} {P : Pool Bytes} {passed : Prop} {e : Bytes} {pc : Build.PC Bytes} (hN : hi ≤ N) (k : Keys.AOK K lo hi P passed pc) :
    addLeft N (Build.pcStep g 0 e P pc).2.1 ≤ addLeft N pc - 1 := by
  cases pc with
  | load => simp [Build.pcStep, addLeft]
  | place s =>
    have := k.2.le
    simp only [Build.pcStep]
    split_ifs <;> simp only [addLeft, List.length_nil] <;> omega
  | copy s acc =>
    simp only [Build.pcStep]
    split_ifs <;> simp only [addLeft, List.length_append, List.length_singleton] <;> omega
  | store h => simp [Build.pcStep, addLeft]
  | done => simp [Build.pcStep, addLeft]

theorem callLeft_step {m : Int} {K : List Bytes} {lo hi N : Nat} {P P' : Pool Bytes} {c c' : Keys.CPC Redeem.insertionSort.St} {acc : List (Bool × Loc)} (hN : hi ≤ N)
    (hh : Keys.OK K lo hi P P.hdr) (k : Keys.COK Redeem.insertionSort m K lo hi P c) (e : Keys.cstep Redeem.insertionSort m P c = some (P', c', acc)) : callLeft N c' ≤ callLeft N c - 1 := by
  have hle := hh.le
  cases c with
  | load =>
    simp only [Keys.cstep, Option.some.injEq, Prod.mk.injEq] at e
    obtain ⟨-, rfl, -⟩ := e
    simp only [callLeft, insStepsLeft, insLeft, Redeem.insertionSort]
    have h1 : P.hdr.len ^ 2 ≤ N ^ 2 := Nat.pow_le_pow_left (by omega) 2
    have h2 : 3 * P.hdr.len * P.hdr.len = 3 * P.hdr.len ^ 2 := by ring
    have h4 : 1 < P.hdr.len → 2 ^ 2 ≤ P.hdr.len ^ 2 := fun h => Nat.pow_le_pow_left h 2
    split_ifs <;> omega
  | sort h pc =>
    obtain ⟨k1, k2, k3⟩ := k
    simp only [Keys.cstep] at e
    split_ifs at e with hst
    · cases e
      simp only [callLeft]
      cases pc with
      | sorting s => simp only [insStepsLeft]; omega
      | _ => simp [Keys.stopped] at hst
    · split at e
      · rename_i b pc' acc' hs
        cases e
        simp only [callLeft]
        have hnd : ∀ s, pc ≠ .done s := by rintro s rfl; exact k2
        have := insStepsLeft_step (Keys.elems_len k1.inside) k3 hnd hs
        omega
      · cases e
  | store h => cases e; simp only [callLeft]; omega
  | range => cases e; simp only [callLeft, List.length_nil]; omega
  | walk h a =>
    simp only [Keys.cstep] at e
    split_ifs at e <;> cases e <;> simp only [callLeft, List.length_append, List.length_singleton] <;> omega
  | count a => cases e; simp [callLeft]
  | done script => cases e; simp [callLeft]

theorem addLeft_zero {N : Nat} {pc : Build.PC Bytes} (h : addLeft N pc = 0) : pc = .done := by
  cases pc with
  | done => rfl
  | _ => simp [addLeft] at h

theorem callLeft_zero {N : Nat} {c : Keys.CPC Redeem.insertionSort.St} (h : callLeft N c = 0) : ∃ script, c = .done script := by
  cases c with
  | done s => exact ⟨s, rfl⟩
  | _ => simp [callLeft] at h

/-- C124: every `AddPublicKey` returns after at most `N + 4` steps of its own, `N` the number of keys at the start and added, however the other goroutines interfere. -/
theorem C124_add_returns (alg : SortAlg) (hin : StaysInside alg) (m : Int) (g : Nat → Nat) (p : Pool Bytes) (ok : SliceOK p) (added : List Bytes) (n t : Nat) (ht : t < added.length) (sch : List Nat)
    (hc : p.val.length + added.length + 4 ≤ sch.count t) : KeyAdded (Keys.run alg m g (Keys.start alg p added n) sch) t := by
  suffices hs : ∀ sch : List Nat, ∃ th, (Keys.run alg m g (Keys.start alg p added n) sch).app.threads[t]? = some th ∧ addLeft (p.val.length + added.length) th.pc ≤ p.val.length + added.length + 4 - sch.count t by
    obtain ⟨th, h1, h2⟩ := hs sch
    exact ⟨th, h1, addLeft_zero (N := p.val.length + added.length) (by omega)⟩
  intro sch
  clear hc
  induction sch using List.reverseRecOn with
  | nil =>
    refine ⟨⟨0, added[t], .load⟩, ?_, by simp [addLeft]⟩
    change (Keys.start alg p added n).app.threads[t]? = _
    rw [threads_start, List.getElem?_eq_getElem ht]; rfl
  | append_singleton l u ih =>
    obtain ⟨th, h1, h2⟩ := ih
    obtain ⟨S, I⟩ := Keys.inv_run hin m g p ok added n l
    have hcard := I.card
    rw [Keys.run_append]
    generalize Keys.run alg m g (Keys.start alg p added n) l = σ at *
    have hlt := (List.getElem?_eq_some_iff.mp h1).1
    change ∃ th, (Keys.step alg m g σ u).app.threads[t]? = some th ∧ _
    unfold Keys.step
    rw [if_neg (by simp [I.calm])]
    split_ifs with cu
    · have hu : σ.app.threads[u]? = some σ.app.threads[u] := List.getElem?_eq_getElem cu
      unfold Build.step
      rw [hu]
      dsimp only
      by_cases hut : u = t
      · subst hut
        rw [h1, Option.some.injEq] at hu
        rw [← hu]
        obtain ⟨f0, _, ak⟩ := I.thr u th h1
        have := addLeft_step g (e := th.elem) (N := p.val.length + added.length) (by omega) ak
        refine ⟨_, List.getElem?_set_self hlt, ?_⟩
        rw [f0]
        dsimp only
        rw [List.count_append, List.count_singleton_self]
        omega
      · refine ⟨th, by rw [List.getElem?_set_ne hut]; exact h1, ?_⟩
        rw [List.count_append, List.count_eq_zero_of_not_mem (a := t) (l := [u]) (by simpa using Ne.symm hut)]
        exact h2
    · have hut : t ≠ u := by omega
      have hcnt : (l ++ [u]).count t = l.count t := by rw [List.count_append, List.count_eq_zero_of_not_mem (a := t) (l := [u]) (by simpa using hut), Nat.add_zero]
      rw [hcnt]
      refine ⟨th, ?_, h2⟩
      split
      · exact h1
      · split
        · exact h1
        · exact h1

/-- C124: with Go's insertion sort every `GetRedeemScript` returns after at most `3·N² + 2·N + 7` steps of its own, `N` the number of keys at the start and added, however the other goroutines interfere. -/
theorem C124_call_returns (m : Int) (g : Nat → Nat) (p : Pool Bytes) (ok : SliceOK p) (added : List Bytes) (n i : Nat) (hi : i < n) (sch : List Nat)
    (hc : 3 * (p.val.length + added.length) ^ 2 + 2 * (p.val.length + added.length) + 7 ≤ sch.count (added.length + i)) :
    ∃ script, GotScript (Keys.run Redeem.insertionSort m g (Keys.start Redeem.insertionSort p added n) sch) i script := by
  suffices hs : ∀ sch : List Nat, ∃ c, (Keys.run Redeem.insertionSort m g (Keys.start Redeem.insertionSort p added n) sch).calls[i]? = some c ∧
      callLeft (p.val.length + added.length) c ≤ 3 * (p.val.length + added.length) ^ 2 + 2 * (p.val.length + added.length) + 7 - sch.count (added.length + i) by
    obtain ⟨c, h1, h2⟩ := hs sch
    obtain ⟨script, rfl⟩ := callLeft_zero (N := p.val.length + added.length) (c := c) (by omega)
    exact ⟨script, h1⟩
  intro sch
  clear hc
  induction sch using List.reverseRecOn with
  | nil => exact ⟨.load, by simp [Keys.run, Keys.start, hi], by simp [callLeft]⟩
  | append_singleton l u ih =>
    obtain ⟨c, h1, h2⟩ := ih
    obtain ⟨S, I⟩ := Keys.inv_run C92_insertion_inside m g p ok added n l
    have hcard := I.card
    rw [Keys.run_append]
    generalize Keys.run Redeem.insertionSort m g (Keys.start Redeem.insertionSort p added n) l = σ at *
    have hlt := (List.getElem?_eq_some_iff.mp h1).1
    have hnum := I.num
    have same : u ≠ added.length + i → (l ++ [u]).count (added.length + i) = l.count (added.length + i) := fun hu => by
      rw [List.count_append, List.count_eq_zero_of_not_mem (a := added.length + i) (l := [u]) (by simpa using Ne.symm hu), Nat.add_zero]
    by_cases hu : u = added.length + i
    · subst hu
      obtain ⟨P', c', acc, e, -⟩ := Keys.call_step C92_insertion_inside I.hdr (I.cal c (List.mem_of_getElem? h1))
      have hs := Keys.step_call g I.calm h1 e
      change ∃ c, (Keys.step Redeem.insertionSort m g σ (added.length + i)).calls[i]? = some c ∧ _
      rw [← hnum, hs]
      refine ⟨c', by simp [hlt], ?_⟩
      have := callLeft_step (N := p.val.length + added.length) (by omega) I.hdr (I.cal c (List.mem_of_getElem? h1)) e
      rw [List.count_append, List.count_singleton_self, hnum]
      omega
    · rw [same hu]
      refine ⟨c, ?_, h2⟩
      change (Keys.step Redeem.insertionSort m g σ u).calls[i]? = some c
      unfold Keys.step
      rw [if_neg (by simp [I.calm])]
      split_ifs with cu
      · exact h1
      · split
        · exact h1
        · split
          · exact h1
          · exact (List.getElem?_set_ne (by omega)).trans h1

/-! ## One after another -/

theorem run_fixed {alg : SortAlg} {m : Int} {g : Nat → Nat} {s : Keys.Sys alg} {t : Nat} (h : Keys.step alg m g s t = s) : ∀ k, Keys.run alg m g s (List.replicate k t) = s
  | 0 => rfl
  | k + 1 => by
    rw [List.replicate_succ]
    show Keys.run alg m g (Keys.step alg m g s t) _ = s
    rw [h]; exact run_fixed h k

theorem run_enough {alg : SortAlg} {m : Int} {g : Nat → Nat} {s s' : Keys.Sys alg} {t N : Nat} (e : Keys.run alg m g s (List.replicate N t) = s') (h : Keys.step alg m g s' t = s') {M : Nat} (hM : N ≤ M) :
    Keys.run alg m g s (List.replicate M t) = s' := by
  obtain ⟨k, rfl⟩ := Nat.exists_eq_add_of_le hM
  rw [List.replicate_add, Keys.run_append, e, run_fixed h]

/-- A call in its turn. -/
theorem turn_call {alg : SortAlg} (hs : Sorts alg) (m : Int) (g : Nat → Nat) {s : Keys.Sys alg} {i : Nat} (hc : s.crashed = false) (ok : SliceOK (s.app.pool 0)) (h : s.calls[i]? = some .load) :
    ∃ N s', (∀ M, N ≤ M → Keys.run alg m g s (List.replicate M (s.app.threads.length + i)) = s') ∧ s'.crashed = false ∧ SliceOK (s'.app.pool 0) ∧ s'.app.threads = s.app.threads ∧
      s'.keys = SortByteArrays s.keys ∧ s'.calls = s.calls.set i (.done (GetRedeemScript ⟨m, s.keys, []⟩).1) := by
  have hi : Keys.Inside (s.app.pool 0) (s.app.pool 0).hdr := ok
  have hl : s.keys.length = (s.app.pool 0).hdr.len := Keys.elems_len hi
  obtain ⟨N, s', e, c1, t1, p1, -, l1⟩ := Keys.goes_run g (Keys.goes_done hs m (s.app.pool 0) hi) hc rfl h
  have hlt := (List.getElem?_eq_some_iff.mp h).1
  have hd : s'.calls[i]? = some (.done (GetRedeemScript ⟨m, s.keys, []⟩).1) := by rw [l1]; simp only [List.getElem?_set_self hlt]; rfl
  have hfix : Keys.step alg m g s' (s.app.threads.length + i) = s' := by
    have := Keys.step_call (m := m) g c1 hd (acc := []) rfl
    rw [t1] at this
    rw [this]
    obtain ⟨⟨pool, thr, log⟩, calls, cr⟩ := s'
    dsimp only at *
    have e1 : (fun f => if f = 0 then pool 0 else pool f) = pool := by funext f; split_ifs with c <;> simp [c]
    have e2 : calls.set i (.done (GetRedeemScript ⟨m, s.keys, []⟩).1) = calls := by
      obtain ⟨hlt', e⟩ := List.getElem?_eq_some_iff.mp hd
      rw [← e, List.set_getElem_self]
    rw [e1, e2]
    simp
  refine ⟨N, s', fun M hM => run_enough e hfix hM, c1, ?_, t1, ?_, l1⟩
  · rw [p1]
    exact hi.put (by rw [sorted_len]; change s.keys.length ≤ _; rw [hl]; have := hi.1; have := hi.2; omega)
  · unfold Keys.Sys.keys
    rw [p1]
    exact Keys.put_elems hi (by rw [sorted_len]; exact hl)

/-- An `AddPublicKey` in its turn. -/
theorem turn_add {alg : SortAlg} (m : Int) (g : Nat → Nat) {s : Keys.Sys alg} {t : Nat} {k : Bytes} (hc : s.crashed = false) (ok : SliceOK (s.app.pool 0)) (h : s.app.threads[t]? = some ⟨0, k, .load⟩) :
    ∃ N s', (∀ M, N ≤ M → Keys.run alg m g s (List.replicate M t) = s') ∧ s'.crashed = false ∧ SliceOK (s'.app.pool 0) ∧ s'.app.threads = s.app.threads.set t ⟨0, k, .done⟩ ∧
      s'.keys = s.keys ++ [k] ∧ s'.calls = s.calls := by
  have hlt := (List.getElem?_eq_some_iff.mp h).1
  obtain ⟨r, d, st⟩ := Build.solo_load g ((s.app.pool 0).hdr.len + 4) h ok (Nat.le_refl _)
  have e := Keys.run_adders (m := m) g (List.replicate ((s.app.pool 0).hdr.len + 4) t) s hc (fun u hu => by rw [List.eq_of_mem_replicate hu]; exact hlt)
  generalize hA : Build.run g s.app (List.replicate ((s.app.pool 0).hdr.len + 4) t) = A at *
  have hthr : A.threads = s.app.threads.set t ⟨0, k, .done⟩ := by
    apply List.ext_getElem?
    intro u
    by_cases c1 : t = u
    · subst c1; rw [List.getElem?_set_self hlt]; exact d
    · rw [List.getElem?_set_ne c1]; exact r.threads u (Ne.symm c1)
  have hfix : Keys.step alg m g { s with app := A } t = { s with app := A } := by
    unfold Keys.step
    rw [if_neg (by simp [hc]), if_pos (by dsimp only; rw [hthr]; simpa using hlt)]
    unfold Build.step
    dsimp only
    rw [d]
    obtain ⟨pool, thr, log⟩ := A
    dsimp only [Build.pcStep] at *
    have e1 : (fun f => if f = 0 then pool 0 else pool f) = pool := by funext f; split_ifs with c <;> simp [c]
    have e2 : thr.set t ⟨0, k, .done⟩ = thr := by
      obtain ⟨hlt', e⟩ := List.getElem?_eq_some_iff.mp d
      rw [← e, List.set_getElem_self]
    rw [e1, e2]
    simp
  refine ⟨_, _, fun M hM => run_enough e hfix hM, hc, st.ok, hthr, st.val, rfl⟩

/-- C124: goroutines that run one after another, in any order, do what the calls do one after another: every key is added at the end, every call returns the redeem script of the keys at that time and leaves them sorted. -/
theorem C124_in_turn (alg : SortAlg) (hs : Sorts alg) (m : Int) (g : Nat → Nat) (p : Pool Bytes) (ok : SliceOK p) (added : List Bytes) (n : Nat) (order : List Nat) (nd : order.Nodup)
    (hin : ∀ t ∈ order, t < added.length + n) :
    ∃ N, ∀ M, N ≤ M → let s := Keys.run alg m g (Keys.start alg p added n) (order.flatMap fun t => List.replicate M t)
      s.crashed = false ∧ s.keys = order.foldl (keysAfter added) p.val ∧
      ∀ before t after, order = before ++ t :: after → (t < added.length → KeyAdded s t) ∧
        ∀ i, t = added.length + i → GotScript s i (GetRedeemScript ⟨m, before.foldl (keysAfter added) p.val, []⟩).1 := by
  suffices h : ∀ (order : List Nat), order.Nodup → ∀ (s : Keys.Sys alg), s.crashed = false → SliceOK (s.app.pool 0) → s.app.threads.length = added.length →
      (∀ t ∈ order, (∀ k, added[t]? = some k → s.app.threads[t]? = some ⟨0, k, .load⟩) ∧ ∀ i, t = added.length + i → s.calls[i]? = some .load) →
      ∃ N, ∀ M, N ≤ M → let s' := Keys.run alg m g s (order.flatMap fun t => List.replicate M t)
        s'.crashed = false ∧ s'.keys = order.foldl (keysAfter added) s.keys ∧
        (∀ t, t ∉ order → s'.app.threads[t]? = s.app.threads[t]? ∧ ∀ i, t = added.length + i → s'.calls[i]? = s.calls[i]?) ∧
        ∀ before t after, order = before ++ t :: after → (t < added.length → KeyAdded s' t) ∧
          ∀ i, t = added.length + i → GotScript s' i (GetRedeemScript ⟨m, before.foldl (keysAfter added) s.keys, []⟩).1 by
    obtain ⟨N, hN⟩ := h order nd (Keys.start alg p added n) rfl ok (by simp [Keys.start, Build.start]) (by
      intro t ht
      refine ⟨fun k hk => by rw [threads_start, hk]; rfl, fun i hi => ?_⟩
      have : i < n := by have := hin t ht; omega
      simp [Keys.start, this])
    exact ⟨N, fun M hM => ⟨(hN M hM).1, (hN M hM).2.1, (hN M hM).2.2.2⟩⟩
  clear nd hin order
  intro order
  induction order with
  | nil =>
    intro _ s hc ok _ _
    exact ⟨0, fun M _ => ⟨hc, rfl, fun _ _ => ⟨rfl, fun _ _ => rfl⟩, fun b t a h => by simp at h⟩⟩
  | cons t order ih =>
    intro nd s hc ok hlen hfresh
    obtain ⟨hto, nd⟩ := List.nodup_cons.mp nd
    -- the turn of `t`
    obtain ⟨N1, s1, hN1, c1, ok1, len1, keys1, keep1, add1, got1⟩ : ∃ N s', (∀ M, N ≤ M → Keys.run alg m g s (List.replicate M t) = s') ∧ s'.crashed = false ∧ SliceOK (s'.app.pool 0) ∧
        s'.app.threads.length = added.length ∧ s'.keys = keysAfter added s.keys t ∧
        (∀ u, u ≠ t → s'.app.threads[u]? = s.app.threads[u]? ∧ ∀ i, u = added.length + i → s'.calls[i]? = s.calls[i]?) ∧
        (t < added.length → ∃ th, s'.app.threads[t]? = some th ∧ th.pc = .done) ∧ (∀ i, t = added.length + i → s'.calls[i]? = some (.done (GetRedeemScript ⟨m, s.keys, []⟩).1)) := by
      obtain ⟨f1, f2⟩ := hfresh t (List.mem_cons_self ..)
      by_cases ct : t < added.length
      · have hk : added[t]? = some added[t] := List.getElem?_eq_getElem ct
        obtain ⟨N, s', a1, a2, a3, a4, a5, a6⟩ := turn_add m g hc ok (f1 _ hk)
        refine ⟨N, s', a1, a2, a3, by rw [a4]; simpa using hlen, by rw [a5]; unfold keysAfter; rw [hk], ?_, ?_, ?_⟩
        · intro u hu
          exact ⟨by rw [a4, List.getElem?_set_ne (Ne.symm hu)], fun i _ => by rw [a6]⟩
        · intro _
          exact ⟨⟨0, added[t], .done⟩, by rw [a4, List.getElem?_set_self (by omega)], rfl⟩
        · intro i hi; omega
      · obtain ⟨i, rfl⟩ := Nat.exists_eq_add_of_le (Nat.le_of_not_lt ct)
        have hl := f2 i rfl
        have hlt := (List.getElem?_eq_some_iff.mp hl).1
        obtain ⟨N, s', a1, a2, a3, a4, a5, a6⟩ := turn_call hs m g hc ok hl
        rw [hlen] at a1
        refine ⟨N, s', a1, a2, a3, by rw [a4]; exact hlen, ?_, ?_, ?_, ?_⟩
        · rw [a5]; unfold keysAfter; rw [List.getElem?_eq_none (by omega)]
        · intro u hu
          refine ⟨by rw [a4], fun j hj => ?_⟩
          rw [a6, List.getElem?_set_ne (by omega)]
        · intro h; omega
        · intro j hj
          have : j = i := by omega
          subst this
          rw [a6, List.getElem?_set_self hlt]
    obtain ⟨N2, hN2⟩ := ih nd s1 c1 ok1 len1 (by
      intro u hu
      have hut : u ≠ t := fun c => hto (c ▸ hu)
      obtain ⟨g1, g2⟩ := hfresh u (List.mem_cons_of_mem _ hu)
      exact ⟨fun k hk => by rw [(keep1 u hut).1]; exact g1 k hk, fun i hi => by rw [(keep1 u hut).2 i hi]; exact g2 i hi⟩)
    refine ⟨max N1 N2, fun M hM => ?_⟩
    have e : Keys.run alg m g s ((t :: order).flatMap fun t => List.replicate M t) = Keys.run alg m g s1 (order.flatMap fun t => List.replicate M t) := by
      rw [List.flatMap_cons, Keys.run_append, hN1 M (by omega)]
    rw [e]
    obtain ⟨b1, b2, b3, b4⟩ := hN2 M (by omega)
    refine ⟨b1, by rw [b2, keys1]; rfl, ?_, ?_⟩
    · intro u hu
      have hut : u ≠ t := fun c => hu (by simp [c])
      have huo : u ∉ order := fun c => hu (by simp [c])
      exact ⟨(b3 u huo).1.trans (keep1 u hut).1, fun i hi => ((b3 u huo).2 i hi).trans ((keep1 u hut).2 i hi)⟩
    · intro before u after hb
      cases before with
      | nil =>
        simp only [List.nil_append, List.cons.injEq] at hb
        obtain ⟨rfl, -⟩ := hb
        refine ⟨fun h => ?_, fun i hi => ?_⟩
        · obtain ⟨th, d1, d2⟩ := add1 h
          exact ⟨th, (b3 t hto).1.trans d1, d2⟩
        · exact ((b3 t hto).2 i hi).trans (got1 i hi)
      | cons v before =>
        simp only [List.cons_append, List.cons.injEq] at hb
        obtain ⟨rfl, hb⟩ := hb
        have := b4 before u after hb
        rw [keys1] at this
        exact this

/-! ## Data races -/

/-- The call has stored the header. -/
def Past {St : Type} : Keys.CPC St → Prop
  | .load | .sort _ _ | .store _ => False
  | _ => True

structure WritesOK {alg : SortAlg} (T C : Nat) (s : Keys.Sys alg) : Prop where
  thr : s.app.threads.length = T
  cal : s.calls.length = C
  field : ∀ (t : Nat) (th : Build.Thread Bytes), s.app.threads[t]? = some th → th.field = 0
  adds : ∀ (t : Nat) (th : Build.Thread Bytes), s.app.threads[t]? = some th → th.pc = .done → ⟨t, true, .header 0⟩ ∈ s.app.log
  calls : ∀ (i : Nat) (c : Keys.CPC alg.St), s.calls[i]? = some c → Past c → ⟨T + i, true, .header 0⟩ ∈ s.app.log
  who : ∀ a ∈ s.app.log, a.by_ < T + C

theorem WritesOK.step {alg : SortAlg} {T C : Nat} {m : Int} (g : Nat → Nat) {s : Keys.Sys alg} (w : WritesOK T C s) (t : Nat) : WritesOK T C (Keys.step alg m g s t) := by
  unfold Keys.step
  split_ifs with hc ct
  · exact w
  · have hth : s.app.threads[t]? = some s.app.threads[t] := List.getElem?_eq_getElem ct
    generalize s.app.threads[t] = th at hth
    have hf := w.field t th hth
    unfold Build.step
    rw [hth]
    dsimp only
    refine ⟨by simpa using w.thr, w.cal, ?_, ?_, fun i c h1 h2 => List.mem_append_left _ (w.calls i c h1 h2), ?_⟩
    · intro u thu hu
      by_cases hut : t = u
      · subst hut
        rw [List.getElem?_set_self ct, Option.some.injEq] at hu
        subst hu
        exact hf
      · rw [List.getElem?_set_ne hut] at hu
        exact w.field u thu hu
    · intro u thu hu hd
      by_cases hut : t = u
      · subst hut
        rw [List.getElem?_set_self ct, Option.some.injEq] at hu
        subst hu
        dsimp only at hd ⊢
        cases hpc : th.pc with
        | done => exact List.mem_append_left _ (w.adds t th hth hpc)
        | store h => simp [Build.pcStep, hf]
        | load => rw [hpc] at hd; simp [Build.pcStep] at hd
        | place h => rw [hpc] at hd; simp only [Build.pcStep] at hd; split_ifs at hd
        | copy h acc => rw [hpc] at hd; simp only [Build.pcStep] at hd; split_ifs at hd
      · rw [List.getElem?_set_ne hut] at hu
        exact List.mem_append_left _ (w.adds u thu hu hd)
    · intro a ha
      rcases List.mem_append.mp ha with ha | ha
      · exact w.who a ha
      · obtain ⟨b, -, rfl⟩ := List.mem_map.mp ha
        have := w.thr
        dsimp only
        omega
  · rcases hcall : s.calls[t - s.app.threads.length]? with _ | c
    · exact w
    · dsimp only
      have hlt := (List.getElem?_eq_some_iff.mp hcall).1
      have ht : T + (t - s.app.threads.length) = t := by have := w.thr; omega
      rcases hstep : Keys.cstep alg m (s.app.pool 0) c with _ | ⟨P, c', acc⟩
      · exact ⟨w.thr, w.cal, w.field, w.adds, w.calls, w.who⟩
      · refine ⟨w.thr, by simpa using w.cal, w.field, fun u thu h1 h2 => List.mem_append_left _ (w.adds u thu h1 h2), ?_, ?_⟩
        · intro i d hd hp
          by_cases hi : t - s.app.threads.length = i
          · subst hi
            rw [List.getElem?_set_self hlt, Option.some.injEq] at hd
            dsimp only at hd
            subst hd
            rw [ht]
            dsimp only
            cases c with
            | load => cases hstep; exact hp.elim
            | sort h pc =>
              simp only [Keys.cstep] at hstep
              split_ifs at hstep
              · cases hstep; exact hp.elim
              · split at hstep
                · cases hstep; exact hp.elim
                · cases hstep
            | store h =>
              cases hstep
              exact List.mem_append_right _ (by simp)
            | range | walk | count | done =>
              have := w.calls _ _ hcall trivial
              rw [ht] at this
              exact List.mem_append_left _ this
          · rw [List.getElem?_set_ne hi] at hd
            exact List.mem_append_left _ (w.calls i d hd hp)
        · intro a ha
          rcases List.mem_append.mp ha with ha | ha
          · exact w.who a ha
          · obtain ⟨b, -, rfl⟩ := List.mem_map.mp ha
            have := w.thr; have := w.cal
            dsimp only
            omega

theorem writesOK_run {alg : SortAlg} (m : Int) (g : Nat → Nat) (p : Pool Bytes) (added : List Bytes) (n : Nat) (sch : List Nat) : WritesOK added.length n (Keys.run alg m g (Keys.start alg p added n) sch) := by
  induction sch using List.reverseRecOn with
  | nil =>
    refine ⟨by simp [Keys.run, Keys.start, Build.start], by simp [Keys.run, Keys.start], ?_, ?_, ?_, by simp [Keys.run, Keys.start, Build.start]⟩
    · intro t th ht
      change (Keys.start alg p added n).app.threads[t]? = _ at ht
      rw [threads_start] at ht
      obtain ⟨k, -, rfl⟩ := Option.map_eq_some_iff.mp ht
      rfl
    · intro t th ht hd
      change (Keys.start alg p added n).app.threads[t]? = _ at ht
      rw [threads_start] at ht
      obtain ⟨k, -, rfl⟩ := Option.map_eq_some_iff.mp ht
      simp at hd
    · intro i c hi hp
      have := List.eq_of_mem_replicate (List.mem_of_getElem? hi)
      subst this
      exact hp.elim
  | append_singleton l t ih =>
    rw [Keys.run_append]
    exact ih.step g t

/-- C124: any two goroutines that have returned, of either kind, race: both store the header of `PublicKeys`. -/
theorem C124_races (alg : SortAlg) (m : Int) (g : Nat → Nat) (p : Pool Bytes) (added : List Bytes) (n : Nat) (sch : List Nat) (t u : Nat) (htu : t ≠ u)
    (ht : CameBack (Keys.run alg m g (Keys.start alg p added n) sch) added.length t) (hu : CameBack (Keys.run alg m g (Keys.start alg p added n) sch) added.length u) :
    BuildRace (Keys.run alg m g (Keys.start alg p added n) sch).app.log := by
  have w := writesOK_run (alg := alg) m g p added n sch
  have get : ∀ v, CameBack (Keys.run alg m g (Keys.start alg p added n) sch) added.length v → ⟨v, true, .header 0⟩ ∈ (Keys.run alg m g (Keys.start alg p added n) sch).app.log := by
    rintro v (⟨-, th, h1, h2⟩ | ⟨i, script, rfl, h⟩)
    · exact w.adds v th h1 h2
    · exact w.calls i _ h trivial
  exact ⟨_, get t ht, _, get u hu, htu, rfl, rfl⟩

/-- C124: with one goroutine there is no race. -/
theorem C124_race_free (alg : SortAlg) (m : Int) (g : Nat → Nat) (p : Pool Bytes) (added : List Bytes) (n : Nat) (one : added.length + n ≤ 1) (sch : List Nat) :
    ¬ BuildRace (Keys.run alg m g (Keys.start alg p added n) sch).app.log := by
  rintro ⟨a, ha, b, hb, hne, -⟩
  have w := writesOK_run (alg := alg) m g p added n sch
  have := w.who a ha
  have := w.who b hb
  omega

/-! ## Examples -/

/-- Two keys in an array with room for a third. -/
def exKeys : Pool Bytes := ⟨[[[3], [2], []]], ⟨0, 2, 3⟩⟩

theorem exKeys_ok : SliceOK exKeys := ⟨by decide, by decide⟩

/-- non-vacuity: one goroutine adds the key `[1]`, two ask for the script -/
example : exKeys.val = [[3], [2]] := rfl

/-- non-vacuity of C124_lost: the key is lost -/
example : ∃ sch, let s := Keys.run Redeem.insertionSort 2 (fun _ => 0) (Keys.start Redeem.insertionSort exKeys [[1]] 1) sch
      s.crashed = false ∧ (∀ t, t < 1 → KeyAdded s t) ∧ GotScript s 0 [0x52, 1, 2, 1, 3, 0x52, 0xae] ∧ s.keys = [[2], [3]] :=
  C124_lost Redeem.insertionSort C92_insertion_sorts 2 (fun _ => 0) exKeys exKeys_ok [[1]]

/-- non-vacuity of C124_miscount: the script claims three keys and has two -/
example : ∃ sch, let s := Keys.run Redeem.insertionSort 2 (fun _ => 0) (Keys.start Redeem.insertionSort exKeys [[1]] 1) sch
      s.crashed = false ∧ (∀ t, t < 1 → KeyAdded s t) ∧ GotScript s 0 [0x52, 1, 2, 1, 3, 0x53, 0xae] ∧ s.keys = [[2], [3], [1]] :=
  C124_miscount Redeem.insertionSort C92_insertion_sorts 2 (fun _ => 0) exKeys exKeys_ok [[1]]

/-- the same on a schedule that is written down: the call (goroutine 1) until it has read the keys, the addition, the rest of the call -/
example : (Keys.run Redeem.insertionSort 2 (fun _ => 0) (Keys.start Redeem.insertionSort exKeys [[1]] 1) (List.replicate 13 1 ++ [0, 0, 0] ++ [1])).keys = [[2], [3], [1]] := by decide +kernel
example : (Keys.run Redeem.insertionSort 2 (fun _ => 0) (Keys.start Redeem.insertionSort exKeys [[1]] 1) (List.replicate 13 1 ++ [0, 0, 0] ++ [1])).calls = [.done [0x52, 1, 2, 1, 3, 0x53, 0xae]] := rfl

/-- non-vacuity of C124_miscount_nobody: two keys of 33 bytes -/
example (keys' : List Bytes) (h : ∀ x ∈ keys', x.length = 33) :
    (GetRedeemScript ⟨2, keys', []⟩).1 ≠ scriptSaying 2 (SortByteArrays [List.replicate 33 3, List.replicate 33 2]) (2 + 1) :=
  C124_miscount_nobody 2 2 [List.replicate 33 3, List.replicate 33 2] keys' [] 1 (by decide) (by decide) h

/-- non-vacuity of C124_members and C124_call_returns: enough steps for each of the three, in any order -/
example : ∃ script, GotScript (Keys.run Redeem.insertionSort 2 (fun _ => 0) (Keys.start Redeem.insertionSort exKeys [[1]] 2) ((List.replicate 40 [2, 0, 1]).flatten)) 1 script :=
  C124_call_returns 2 (fun _ => 0) exKeys exKeys_ok [[1]] 2 1 (by decide) _ (by decide +kernel)
example : KeyAdded (Keys.run Redeem.insertionSort 2 (fun _ => 0) (Keys.start Redeem.insertionSort exKeys [[1]] 2) ((List.replicate 40 [2, 0, 1]).flatten)) 0 :=
  C124_add_returns Redeem.insertionSort C92_insertion_inside 2 (fun _ => 0) exKeys exKeys_ok [[1]] 2 0 (by decide) _ (by decide +kernel)

/-- non-vacuity of C124_in_turn: the call first, then the addition, then the other call -/
example : ([1, 0, 2] : List Nat).foldl (keysAfter [[1]]) exKeys.val = [[1], [2], [3]] := by decide +kernel
example : ([1, 0] : List Nat).foldl (keysAfter [[1]]) exKeys.val = [[2], [3], [1]] := by decide +kernel

/-- non-vacuity of C124_races: the two calls above have returned -/
example : BuildRace (Keys.run Redeem.insertionSort 2 (fun _ => 0) (Keys.start Redeem.insertionSort exKeys [[1]] 2) ((List.replicate 40 [2, 0, 1]).flatten)).app.log :=
  C124_races Redeem.insertionSort 2 (fun _ => 0) exKeys [[1]] 2 _ 1 2 (by decide)
    (Or.inr (by
      obtain ⟨s, h⟩ := C124_call_returns 2 (fun _ => 0) exKeys exKeys_ok [[1]] 2 0 (by decide) ((List.replicate 40 [2, 0, 1]).flatten) (by decide +kernel)
      exact ⟨0, s, rfl, h⟩))
    (Or.inr (by
      obtain ⟨s, h⟩ := C124_call_returns 2 (fun _ => 0) exKeys exKeys_ok [[1]] 2 1 (by decide) ((List.replicate 40 [2, 0, 1]).flatten) (by decide +kernel)
      exact ⟨1, s, rfl, h⟩))

/-- the hypothesis of C124_members is needed: with a sort that leaves the array a call ends the program -/
example : (Keys.run unguarded 2 (fun _ => 0) (Keys.start unguarded exKeys [[1]] 1) [1, 1]).crashed = true := by decide +kernel

end Verif.Props
