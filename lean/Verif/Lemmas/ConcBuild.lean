import Verif.Spec.ConcBuild
import Mathlib.Tactic.SplitIfs
/-! # Invariants of concurrent appends -/
namespace Verif.Build
open Verif Verif.Spec
open Verif.Obj (RefSlice)

variable {α : Type}

/-- Position `p` may show `x`: an element of `B`, or the element of a goroutine that works on position `p`. -/
def EntOK (jobs : List (Nat × α)) (slot : Nat → Option Nat) (f : Nat) (B : List α) (p : Nat) (x : α) : Prop :=
  if p < B.length then B[p]? = some x else ∃ t, jobs[t]? = some (f, x) ∧ slot t = some p

def Shown (jobs : List (Nat × α)) (slot : Nat → Option Nat) (f : Nat) (B l : List α) : Prop := ∀ p x, l[p]? = some x → EntOK jobs slot f B p x

structure Good (jobs : List (Nat × α)) (slot : Nat → Option Nat) (f : Nat) (B : List α) (P : Pool α) (h : RefSlice) : Prop where
  len : h.len ≤ h.cap
  cap : h.cap ≤ (P.arrays.getD h.arr []).length
  base : B.length ≤ h.len
  ent : Shown jobs slot f B (P.elems h)

def TInv (jobs : List (Nat × α)) (slot : Nat → Option Nat) (f : Nat) (B : List α) (P : Pool α) (t : Nat) : PC α → Prop
  | .load => slot t = none
  | .place s => Good jobs slot f B P s ∧ slot t = some s.len
  | .copy s acc => Good jobs slot f B P s ∧ slot t = some s.len ∧ acc.length ≤ s.len ∧ Shown jobs slot f B acc
  | .store h => Good jobs slot f B P h ∧ B.length < h.len
  | .done => B.length < P.hdr.len

variable {jobs : List (Nat × α)} {slot : Nat → Option Nat} {f : Nat} {B : List α}

theorem Shown.mono {slot' : Nat → Option Nat} (h : ∀ t p, slot t = some p → slot' t = some p) {l : List α} (s : Shown jobs slot f B l) : Shown jobs slot' f B l := by
  intro p x hx
  have := s p x hx
  unfold EntOK at *
  split_ifs at * with c
  · exact this
  · obtain ⟨t, h1, h2⟩ := this
    exact ⟨t, h1, h t p h2⟩

theorem Good.mono {slot' : Nat → Option Nat} (h : ∀ t p, slot t = some p → slot' t = some p) {P : Pool α} {s : RefSlice} (g : Good jobs slot f B P s) :
    Good jobs slot' f B P s := ⟨g.len, g.cap, g.base, g.ent.mono h⟩

theorem elems_write (P : Pool α) (a n : Nat) (e : α) (s : RefSlice) (p : Nat) (x : α)
    (hx : (Pool.elems { P with arrays := P.arrays.set a ((P.arrays.getD a []).set n e) } s)[p]? = some x) :
    (P.elems s)[p]? = some x ∨ (p = n ∧ x = e) := by
  unfold Pool.elems at *
  rw [List.getElem?_take] at hx ⊢
  split_ifs at hx with c
  rw [if_pos c]
  dsimp only at hx
  by_cases ha : s.arr = a ∧ a < P.arrays.length
  · obtain ⟨rfl, hlt⟩ := ha
    rw [List.getD_eq_getElem?_getD, List.getElem?_set_self hlt] at hx
    simp only [Option.getD_some] at hx
    rw [List.getElem?_set] at hx
    split_ifs at hx with c1 c2
    · exact .inr ⟨c1.symm, (Option.some.inj hx).symm⟩
    · exact .inl hx
  · left
    have e1 : (P.arrays.set a ((P.arrays.getD a []).set n e)).getD s.arr [] = P.arrays.getD s.arr [] := by
      rw [List.getD_eq_getElem?_getD, List.getElem?_set]
      split_ifs with c1 c2
      · exact absurd ⟨c1.symm, c2⟩ ha
      · subst c1; rw [List.getD_eq_getElem?_getD, List.getElem?_eq_none (Nat.le_of_not_lt c2)]
      · rw [List.getD_eq_getElem?_getD]
    rw [e1] at hx
    exact hx

theorem length_write (P : Pool α) (a n : Nat) (e : α) (b : Nat) :
    ((P.arrays.set a ((P.arrays.getD a []).set n e)).getD b []).length = (P.arrays.getD b []).length := by
  rw [List.getD_eq_getElem?_getD, List.getElem?_set]
  split_ifs with c1 c2
  · subst c1; simp
  · subst c1; rw [List.getD_eq_getElem?_getD, List.getElem?_eq_none (by omega)]
  · rw [List.getD_eq_getElem?_getD]

theorem Good.write {P : Pool α} {s : RefSlice} (g : Good jobs slot f B P s) {a n : Nat} {e : α} (h : EntOK jobs slot f B n e) :
    Good jobs slot f B { P with arrays := P.arrays.set a ((P.arrays.getD a []).set n e) } s where
  len := g.len
  cap := by rw [length_write]; exact g.cap
  base := g.base
  ent := fun p x hx => by
    rcases elems_write P a n e s p x hx with h1 | ⟨rfl, rfl⟩
    · exact g.ent p x h1
    · exact h

theorem getD_push (A : List (List α)) (n : List α) (a : Nat) (h : a < A.length) : (A ++ [n]).getD a [] = A.getD a [] := by
  rw [List.getD_eq_getElem?_getD, List.getD_eq_getElem?_getD, List.getElem?_append_left h]

theorem Good.push {P : Pool α} {s : RefSlice} (g : Good jobs slot f B P s) (n : List α) : Good jobs slot f B { P with arrays := P.arrays ++ [n] } s := by
  by_cases h : s.arr < P.arrays.length
  · have e := getD_push P.arrays n s.arr h
    exact ⟨g.len, by dsimp only; rw [e]; exact g.cap, g.base, by unfold Pool.elems; dsimp only; rw [e]; exact g.ent⟩
  · have h1 := g.cap
    have h2 := g.len
    rw [List.getD_eq_getElem?_getD, List.getElem?_eq_none (by omega)] at h1
    simp at h1
    exact ⟨g.len, by omega, g.base, by unfold Pool.elems; rw [show s.len = 0 by omega]; intro p x hx; simp at hx⟩

theorem Good.hdr {P : Pool α} {s : RefSlice} (g : Good jobs slot f B P s) (h : RefSlice) : Good jobs slot f B { P with hdr := h } s := ⟨g.len, g.cap, g.base, g.ent⟩

/-- The invariant of variable `f`. -/
structure Inv (jobs : List (Nat × α)) (f : Nat) (B : List α) (slot : Nat → Option Nat) (s : Sys α) : Prop where
  same : s.threads.map (fun th => (th.field, th.elem)) = jobs
  hdr : Good jobs slot f B (s.pool f) (s.pool f).hdr
  thr : ∀ t th, s.threads[t]? = some th → th.field = f → TInv jobs slot f B (s.pool f) t th.pc

theorem TInv.mono {slot' : Nat → Option Nat} (h : ∀ t p, slot t = some p → slot' t = some p) {P : Pool α} {t : Nat} (ht : slot' t = slot t) {pc : PC α}
    (i : TInv jobs slot f B P t pc) : TInv jobs slot' f B P t pc := by
  cases pc with
  | load => exact ht.trans i
  | place s => exact ⟨i.1.mono h, ht.trans i.2⟩
  | copy s acc => exact ⟨i.1.mono h, ht.trans i.2.1, i.2.2.1, i.2.2.2.mono h⟩
  | store s => exact ⟨i.1.mono h, i.2⟩
  | done => exact i

/-- A change of the pool that keeps good headers good and the length of the variable above the base keeps the threads' invariants. -/
theorem TInv.pool {P P' : Pool α} (hg : ∀ s, Good jobs slot f B P s → Good jobs slot f B P' s) (hh : B.length < P.hdr.len → B.length < P'.hdr.len) {t : Nat} {pc : PC α}
    (i : TInv jobs slot f B P t pc) : TInv jobs slot f B P' t pc := by
  cases pc with
  | load => exact i
  | place s => exact ⟨hg _ i.1, i.2⟩
  | copy s acc => exact ⟨hg _ i.1, i.2⟩
  | store s => exact ⟨hg _ i.1, i.2⟩
  | done => exact hh i

theorem shown_snoc {l : List α} {x : α} (h : Shown jobs slot f B l) (hx : EntOK jobs slot f B l.length x) : Shown jobs slot f B (l ++ [x]) := by
  intro p y hy
  rcases Nat.lt_trichotomy p l.length with c | c | c
  · rw [List.getElem?_append_left c] at hy; exact h p y hy
  · subst c; simp at hy; exact hy ▸ hx
  · rw [List.getElem?_eq_none (by simp; omega)] at hy; cases hy

variable [Inhabited α]

/-- One step of goroutine `t` on variable `f`. -/
theorem step_field (g : Nat → Nat) {P : Pool α} {t : Nat} {e : α} {pc : PC α} (hj : jobs[t]? = some (f, e)) (hP : Good jobs slot f B P P.hdr) (hi : TInv jobs slot f B P t pc) :
    ∃ slot' : Nat → Option Nat, (∀ u p, slot u = some p → slot' u = some p) ∧ (∀ u, u ≠ t → slot' u = slot u) ∧
      Good jobs slot' f B (pcStep g f e P pc).1 (pcStep g f e P pc).1.hdr ∧ TInv jobs slot' f B (pcStep g f e P pc).1 t (pcStep g f e P pc).2.1 ∧
      (∀ s, Good jobs slot' f B P s → Good jobs slot' f B (pcStep g f e P pc).1 s) ∧ (B.length < P.hdr.len → B.length < (pcStep g f e P pc).1.hdr.len) := by
  cases pc with
  | load =>
    refine ⟨fun u => if u = t then some P.hdr.len else slot u, ?_, ?_, ?_, ?_, ?_, ?_⟩
    · intro u p hu
      dsimp only
      split_ifs with c
      · subst c; rw [show slot u = none from hi] at hu; cases hu
      · exact hu
    · intro u hu; simp [hu]
    · exact hP.mono fun u p hu => by
        split_ifs with c
        · subst c; rw [show slot u = none from hi] at hu; cases hu
        · exact hu
    · exact ⟨hP.mono fun u p hu => by
        split_ifs with c
        · subst c; rw [show slot u = none from hi] at hu; cases hu
        · exact hu, by simp⟩
    · exact fun s h => h
    · exact fun h => h
  | place s =>
    obtain ⟨hg, hs⟩ := hi
    have hent : EntOK jobs slot f B s.len e := by
      unfold EntOK
      rw [if_neg (by have := hg.base; omega)]
      exact ⟨t, hj, hs⟩
    refine ⟨slot, fun _ _ h => h, fun _ _ => rfl, ?_⟩
    unfold pcStep
    dsimp only
    split_ifs with c
    · refine ⟨hP.write hent, ⟨?_, Nat.lt_succ_of_le hg.base⟩, fun s' h => h.write hent, fun h => h⟩
      have hw := hg.write (a := s.arr) hent
      refine ⟨c, by rw [length_write]; exact hg.cap, by dsimp only; have := hg.base; omega, ?_⟩
      intro p x hx
      by_cases hp : p = s.len
      · subst hp
        unfold Pool.elems at hx
        dsimp only at hx
        have hlt : s.arr < P.arrays.length := by
          by_contra hc
          have := hg.cap
          rw [List.getD_eq_getElem?_getD, List.getElem?_eq_none (by omega)] at this
          simp at this; omega
        have hn : s.len < (P.arrays.getD s.arr []).length := Nat.lt_of_lt_of_le c hg.cap
        rw [List.getElem?_take, if_pos (by omega), List.getD_eq_getElem?_getD, List.getElem?_set_self hlt, Option.getD_some, List.getElem?_set_self hn] at hx
        exact Option.some.inj hx ▸ hent
      · refine hw.ent p x ?_
        unfold Pool.elems at hx ⊢
        rw [List.getElem?_take] at hx ⊢
        dsimp only at hx
        split_ifs at hx with c1
        rw [if_pos (by omega)]
        exact hx
    · exact ⟨hP, ⟨hg, hs, Nat.zero_le _, fun p x hx => by simp at hx⟩, fun _ h => h, fun h => h⟩
  | copy s acc =>
    obtain ⟨hg, hs, hl, ha⟩ := hi
    have hent : EntOK jobs slot f B s.len e := by
      unfold EntOK
      rw [if_neg (by have := hg.base; omega)]
      exact ⟨t, hj, hs⟩
    refine ⟨slot, fun _ _ h => h, fun _ _ => rfl, ?_⟩
    unfold pcStep
    dsimp only
    split_ifs with c
    · refine ⟨hP, ⟨hg, hs, by simp; omega, shown_snoc ha ?_⟩, fun _ h => h, fun h => h⟩
      have hn : acc.length < (P.arrays.getD s.arr []).length := Nat.lt_of_lt_of_le c (Nat.le_trans hg.len hg.cap)
      refine hg.ent _ _ ?_
      unfold Pool.elems
      rw [List.getElem?_take, if_pos c]
      generalize P.arrays.getD s.arr [] = X at hn ⊢
      simp [List.getD_eq_getElem?_getD, hn]
    · have hal : acc.length = s.len := by omega
      refine ⟨hP.push _, ⟨?_, Nat.lt_succ_of_le hg.base⟩, fun s' h => h.push _, fun h => h⟩
      have e1 : (P.arrays ++ [acc ++ [e] ++ List.replicate (g s.len) default]).getD P.arrays.length [] = acc ++ [e] ++ List.replicate (g s.len) default := by
        rw [List.getD_eq_getElem?_getD]; simp
      refine ⟨by simp, by dsimp only; rw [e1]; simp [hal]; omega, by dsimp only; have := hg.base; omega, ?_⟩
      unfold Pool.elems
      dsimp only
      rw [e1, List.take_append_of_le_length (by simp [hal]), List.take_of_length_le (by simp [hal])]
      exact shown_snoc ha (hal ▸ hent)
  | store h =>
    refine ⟨slot, fun _ _ h => h, fun _ _ => rfl, ?_⟩
    exact ⟨hi.1.hdr h, hi.2, fun s hs => hs.hdr h, fun _ => hi.2⟩
  | done =>
    exact ⟨slot, fun _ _ h => h, fun _ _ => rfl, hP, hi, fun _ h => h, fun h => h⟩

theorem inv_step (g : Nat → Nat) {s : Sys α} (hI : Inv jobs f B slot s) (t : Nat) : ∃ slot', Inv jobs f B slot' (step g s t) := by
  unfold step
  rcases ht : s.threads[t]? with _ | th
  · exact ⟨slot, hI⟩
  dsimp only
  have hjobs : (s.threads.set t { th with pc := (pcStep g th.field th.elem (s.pool th.field) th.pc).2.1 }).map (fun th => (th.field, th.elem)) = jobs := by
    rw [List.map_set, ← hI.same]
    apply List.ext_getElem?
    intro u
    rw [List.getElem?_set]
    split_ifs with c1 c2
    · subst c1; rw [List.getElem?_map, ht]; rfl
    · subst c1; rw [List.getElem?_eq_none (by omega)]
    · rfl
  by_cases hf : th.field = f
  · subst hf
    have hj : jobs[t]? = some (th.field, th.elem) := by rw [← hI.same, List.getElem?_map, ht]; rfl
    obtain ⟨slot', m1, m2, k1, k2, k3, k4⟩ := step_field g hj hI.hdr (hI.thr t th ht rfl)
    refine ⟨slot', hjobs, by simpa using k1, ?_⟩
    intro u thu hu hfu
    simp only [if_pos]
    by_cases hut : u = t
    · subst hut
      rw [List.getElem?_set_self (by rw [List.getElem?_eq_some_iff] at ht; exact ht.1)] at hu
      cases hu
      exact k2
    · rw [List.getElem?_set_ne (Ne.symm hut)] at hu
      exact TInv.pool k3 k4 ((hI.thr u thu hu hfu).mono m1 (m2 u hut))
  · refine ⟨slot, hjobs, ?_, ?_⟩
    · simp only [if_neg (Ne.symm hf)]; exact hI.hdr
    · intro u thu hu hfu
      simp only [if_neg (Ne.symm hf)]
      by_cases hut : u = t
      · subst hut
        rw [List.getElem?_set_self (by rw [List.getElem?_eq_some_iff] at ht; exact ht.1)] at hu
        cases hu
        exact absurd hfu hf
      · rw [List.getElem?_set_ne (Ne.symm hut)] at hu
        exact hI.thr u thu hu hfu

theorem inv_run (g : Nat → Nat) : ∀ (sch : List Nat) {s : Sys α} {slot : Nat → Option Nat}, Inv jobs f B slot s → ∃ slot', Inv jobs f B slot' (run g s sch)
  | [], _, slot, h => ⟨slot, h⟩
  | t :: sch, _, _, h => by
    obtain ⟨slot', h'⟩ := inv_step g h t
    exact inv_run g sch h'

omit [Inhabited α] in
theorem inv_start (pool : Nat → Pool α) (jobs : List (Nat × α)) (f : Nat) (h : SliceOK (pool f)) : Inv jobs f (pool f).val (fun _ => none) (start pool jobs) where
  same := by simp [start, Function.comp_def]
  hdr := by
    have hl : (pool f).val.length = (pool f).hdr.len := by
      simp only [Pool.val, Pool.elems, List.length_take]
      have := h.1; have := h.2; omega
    refine ⟨h.1, h.2, by rw [hl]; exact Nat.le_refl _, ?_⟩
    intro p x hx
    unfold EntOK
    rw [if_pos (show p < (pool f).val.length from (List.getElem?_eq_some_iff.1 hx).1)]
    exact hx
  thr := by
    intro t th ht _
    simp only [start, List.getElem?_map, Option.map_eq_some_iff] at ht
    obtain ⟨j, -, rfl⟩ := ht
    rfl

/-! ## One goroutine for a while -/

theorem run_append (g : Nat → Nat) (s : Sys α) (a b : List Nat) : run g s (a ++ b) = run g (run g s a) b := List.foldl_append ..

theorem run_cons (g : Nat → Nat) (s : Sys α) (t : Nat) (b : List Nat) : run g s (t :: b) = run g (step g s t) b := rfl

/-- What is the same in two states but for goroutine `t` and variable `f`. -/
structure Rest (t f : Nat) (s s' : Sys α) : Prop where
  pool : ∀ f', f' ≠ f → s'.pool f' = s.pool f'
  threads : ∀ u, u ≠ t → s'.threads[u]? = s.threads[u]?
  len : s'.threads.length = s.threads.length

omit [Inhabited α] in
theorem Rest.refl (t f : Nat) (s : Sys α) : Rest t f s s := ⟨fun _ _ => rfl, fun _ _ => rfl, rfl⟩
omit [Inhabited α] in
theorem Rest.trans {t f : Nat} {a b c : Sys α} (h : Rest t f a b) (k : Rest t f b c) : Rest t f a c :=
  ⟨fun f' h' => (k.pool f' h').trans (h.pool f' h'), fun u hu => (k.threads u hu).trans (h.threads u hu), k.len.trans h.len⟩

theorem step_eq (g : Nat → Nat) {s : Sys α} {t f : Nat} {e : α} {pc : PC α} (ht : s.threads[t]? = some ⟨f, e, pc⟩) :
    Rest t f s (step g s t) ∧ (step g s t).pool f = (pcStep g f e (s.pool f) pc).1 ∧ (step g s t).threads[t]? = some ⟨f, e, (pcStep g f e (s.pool f) pc).2.1⟩ := by
  unfold step
  rw [ht]
  dsimp only
  refine ⟨⟨fun f' h => if_neg h, fun u hu => List.getElem?_set_ne (Ne.symm hu), by simp⟩, if_pos rfl, ?_⟩
  rw [List.getElem?_set_self (List.getElem?_eq_some_iff.1 ht).1]

/-- Steps of a goroutine that has returned do nothing. -/
theorem idle (g : Nat → Nat) {t f : Nat} {e : α} : ∀ (n : Nat) {s : Sys α}, s.threads[t]? = some ⟨f, e, .done⟩ →
    Rest t f s (run g s (List.replicate n t)) ∧ (run g s (List.replicate n t)).pool f = s.pool f ∧ (run g s (List.replicate n t)).threads[t]? = some ⟨f, e, .done⟩
  | 0, s, h => ⟨Rest.refl _ _ _, rfl, h⟩
  | n + 1, s, h => by
    obtain ⟨h1, h2, h3⟩ := step_eq g h
    obtain ⟨k1, k2, k3⟩ := idle g n (s := step g s t) h3
    exact ⟨h1.trans k1, k2.trans h2, k3⟩

/-- The effect of the rest of a call on variable `f`: the new value is what the header `h` shows, followed by `e`; what a header of at most that length shows is not changed. -/
structure Stored (g : Nat → Nat) (P P' : Pool α) (h : RefSlice) (e : α) : Prop where
  val : P'.val = P.elems h ++ [e]
  ok : SliceOK P'
  inPlace : h.len < h.cap → P' = ⟨P.arrays.set h.arr ((P.arrays.getD h.arr []).set h.len e), { h with len := h.len + 1 }⟩
  fresh : h.cap ≤ h.len → ∃ k, P' = ⟨P.arrays ++ [P.elems h ++ [e] ++ List.replicate k default], ⟨P.arrays.length, h.len + 1, h.len + 1 + k⟩⟩ ∧ k = g h.len
  old : ∀ k : RefSlice, k.len ≤ h.len → k.len ≤ k.cap → k.cap ≤ (P.arrays.getD k.arr []).length → P'.elems k = P.elems k ∧ k.cap ≤ (P'.arrays.getD k.arr []).length

theorem solo_copy (g : Nat → Nat) {t f : Nat} {e : α} {h : RefSlice} : ∀ (d : Nat) {s : Sys α} {acc : List α} (n : Nat), s.threads[t]? = some ⟨f, e, .copy h acc⟩ →
    h.len ≤ (((s.pool f).arrays.getD h.arr []).length) → h.cap ≤ h.len → h.len = acc.length + d → acc = ((s.pool f).elems h).take acc.length → d + 2 ≤ n →
    Rest t f s (run g s (List.replicate n t)) ∧ (run g s (List.replicate n t)).threads[t]? = some ⟨f, e, .done⟩ ∧
    Stored g (s.pool f) ((run g s (List.replicate n t)).pool f) h e
  | 0, s, acc, n, ht, hc, hcap, hd, ha, hn => by
    obtain ⟨n, rfl⟩ := Nat.exists_eq_add_of_le hn
    obtain ⟨r1, p1, t1⟩ := step_eq g ht
    simp only [pcStep, if_neg (show ¬ acc.length < h.len by omega)] at p1 t1
    obtain ⟨r2, p2, t2⟩ := step_eq g t1
    simp only [pcStep] at p2 t2
    obtain ⟨r3, p3, t3⟩ := idle g n t2
    have er : run g s (List.replicate (0 + 2 + n) t) = run g (step g (step g s t) t) (List.replicate n t) := by
      rw [show 0 + 2 + n = n + 1 + 1 by omega]; rfl
    rw [er]
    refine ⟨(r1.trans r2).trans r3, t3, ?_⟩
    rw [p3, p2, p1]
    have hel : (s.pool f).elems h = acc := by
      rw [ha]
      have : ((s.pool f).elems h).length = h.len := by simp only [Pool.elems, List.length_take]; omega
      rw [List.take_of_length_le (by omega)]
    have e1 : ((s.pool f).arrays ++ [acc ++ [e] ++ List.replicate (g h.len) default]).getD (s.pool f).arrays.length [] = acc ++ [e] ++ List.replicate (g h.len) default := by
      rw [List.getD_eq_getElem?_getD]; simp
    refine ⟨?_, ⟨?_, ?_⟩, fun hh => absurd hh (by omega), fun _ => ⟨_, by rw [hel], rfl⟩, ?_⟩
    · unfold Pool.val Pool.elems
      dsimp only
      rw [e1, List.take_append_of_le_length (by simp; omega), List.take_of_length_le (by simp; omega)]
      rw [show (List.take h.len ((s.pool f).arrays.getD h.arr [])) = acc from hel]
    · simp
    · dsimp only; rw [e1]; simp; omega
    · intro k hk hk2 hk3
      by_cases hlt : k.arr < (s.pool f).arrays.length
      · have e2 := getD_push (s.pool f).arrays (acc ++ [e] ++ List.replicate (g h.len) default) k.arr hlt
        unfold Pool.elems
        dsimp only
        rw [e2]
        exact ⟨rfl, hk3⟩
      · rw [List.getD_eq_getElem?_getD, List.getElem?_eq_none (by omega)] at hk3
        simp at hk3
        refine ⟨?_, by omega⟩
        unfold Pool.elems
        rw [show k.len = 0 by omega]; simp
  | d + 1, s, acc, n, ht, hc, hcap, hd, ha, hn => by
    obtain ⟨n, rfl⟩ : ∃ m, n = m + 1 := ⟨n - 1, by omega⟩
    obtain ⟨r1, p1, t1⟩ := step_eq g ht
    simp only [pcStep, if_pos (show acc.length < h.len by omega)] at p1 t1
    have hn' : acc.length < ((s.pool f).arrays.getD h.arr []).length := by omega
    have ha' : acc ++ [((s.pool f).arrays.getD h.arr []).getD acc.length default] = ((s.pool f).elems h).take (acc.length + 1) := by
      rw [List.take_add_one, ← ha]
      congr 1
      unfold Pool.elems
      rw [List.getElem?_take, if_pos (by omega)]
      generalize (s.pool f).arrays.getD h.arr [] = X at hn' ⊢
      simp [List.getD_eq_getElem?_getD, hn']
    have ih := solo_copy g d (s := step g s t) n t1 (by rw [p1]; exact hc) hcap (by simp; omega) (by rw [p1]; simpa using ha') (by omega)
    rw [p1] at ih
    exact ⟨r1.trans ih.1, ih.2⟩

theorem solo_place (g : Nat → Nat) {t f : Nat} {e : α} {h : RefSlice} {s : Sys α} (n : Nat) (ht : s.threads[t]? = some ⟨f, e, .place h⟩) (hl : h.len ≤ h.cap)
    (hc : h.cap ≤ (((s.pool f).arrays.getD h.arr []).length)) (hn : h.len + 3 ≤ n) :
    Rest t f s (run g s (List.replicate n t)) ∧ (run g s (List.replicate n t)).threads[t]? = some ⟨f, e, .done⟩ ∧
    Stored g (s.pool f) ((run g s (List.replicate n t)).pool f) h e := by
  obtain ⟨r1, p1, t1⟩ := step_eq g ht
  by_cases c : h.len < h.cap
  · simp only [pcStep, if_pos c] at p1 t1
    obtain ⟨r2, p2, t2⟩ := step_eq g t1
    simp only [pcStep] at p2 t2
    obtain ⟨n, rfl⟩ : ∃ m, n = m + 1 + 1 := ⟨n - 2, by omega⟩
    obtain ⟨r3, p3, t3⟩ := idle g n t2
    refine ⟨(r1.trans r2).trans r3, t3, ?_⟩
    rw [show run g s (List.replicate (n + 1 + 1) t) = run g (step g (step g s t) t) (List.replicate n t) from rfl, p3, p2, p1]
    have hlt : h.arr < (s.pool f).arrays.length := by
      by_contra hc'
      rw [List.getD_eq_getElem?_getD, List.getElem?_eq_none (by omega)] at hc
      simp at hc; omega
    have e1 : ((s.pool f).arrays.set h.arr (((s.pool f).arrays.getD h.arr []).set h.len e)).getD h.arr [] = ((s.pool f).arrays.getD h.arr []).set h.len e := by
      rw [List.getD_eq_getElem?_getD, List.getElem?_set_self hlt]; rfl
    refine ⟨?_, ⟨c, ?_⟩, fun _ => rfl, fun hh => absurd hh (by omega), ?_⟩
    · unfold Pool.val Pool.elems
      dsimp only
      rw [e1, List.take_add_one, List.getElem?_set_self (by omega), List.take_set_of_le (by omega)]; rfl
    · dsimp only; rw [length_write]; exact hc
    · intro k hk hk2 hk3
      refine ⟨?_, by dsimp only; rw [length_write]; exact hk3⟩
      unfold Pool.elems
      dsimp only
      by_cases hka : k.arr = h.arr
      · rw [hka, e1, List.take_set_of_le hk]
      · rw [List.getD_eq_getElem?_getD, List.getElem?_set_ne (Ne.symm hka), ← List.getD_eq_getElem?_getD]
  · simp only [pcStep, if_neg c] at p1 t1
    obtain ⟨n, rfl⟩ : ∃ m, n = m + 1 := ⟨n - 1, by omega⟩
    have ih := solo_copy g h.len (s := step g s t) n t1 (by rw [p1]; omega) (by omega) (by simp) (by simp) (by omega)
    rw [p1] at ih
    exact ⟨r1.trans ih.1, ih.2⟩

theorem solo_load (g : Nat → Nat) {t f : Nat} {e : α} {s : Sys α} (n : Nat) (ht : s.threads[t]? = some ⟨f, e, .load⟩) (ok : SliceOK (s.pool f)) (hn : (s.pool f).hdr.len + 4 ≤ n) :
    Rest t f s (run g s (List.replicate n t)) ∧ (run g s (List.replicate n t)).threads[t]? = some ⟨f, e, .done⟩ ∧
    Stored g (s.pool f) ((run g s (List.replicate n t)).pool f) (s.pool f).hdr e := by
  obtain ⟨r1, p1, t1⟩ := step_eq g ht
  simp only [pcStep] at p1 t1
  obtain ⟨n, rfl⟩ : ∃ m, n = m + 1 := ⟨n - 1, by omega⟩
  have ih := solo_place g (s := step g s t) n t1 ok.1 (by rw [p1]; exact ok.2) (by omega)
  rw [p1] at ih
  exact ⟨r1.trans ih.1, ih.2⟩

end Verif.Build
