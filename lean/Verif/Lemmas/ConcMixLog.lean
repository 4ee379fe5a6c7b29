import Verif.Lemmas.ConcMixOrder
/-!
# What the log of accesses knows (for C122, C123)
-/
namespace Verif.Mix
open Verif Verif.Spec
open Verif.Build (Pool Loc Access)
open Verif.Obj (RefSlice)

variable {α β : Type}

def CanLook (f : Nat) : RPC α β → Prop
  | .at_ p => MayLook f p
  | .pick f' _ _ k => f = f' ∨ ∃ x, MayLook f (k x)
  | .walk f' _ _ k => f = f' ∨ ∃ l, MayLook f (k l)
  | .hold hs k => f ∈ hs.map Prod.fst ∨ MayLook f k

def CanAssign (f : Nat) : RPC α β → Prop
  | .at_ p => MayAssign f p
  | .pick _ _ _ k => ∃ x, MayAssign f (k x)
  | .walk _ _ _ k => ∃ l, MayAssign f (k l)
  | .hold hs k => f ∈ hs.map Prod.fst ∨ MayAssign f k

def StillMust (f : Nat) : RPC α β → Prop
  | .at_ p => MustLook f p
  | .pick _ _ _ k => ∀ x, MustLook f (k x)
  | .walk _ _ _ k => ∀ l, MustLook f (k l)
  | .hold _ k => MustLook f k

/-- The access is to variable `f`. -/
def Touches (f : Nat) (l : Loc) : Prop := l = .header f ∨ ∃ arr pos, l = .elem f arr pos

theorem Touches.unique {f f' : Nat} {l : Loc} (h : Touches f l) (k : Touches f' l) : f = f' := by
  rcases h with h | ⟨_, _, h⟩ <;> rcases k with k | ⟨_, _, k⟩ <;> rw [h] at k <;> cases k <;> rfl

theorem map_fst_map (fs : List Nat) (g : Nat → RefSlice) : (fs.map fun f => (f, g f)).map Prod.fst = fs := by simp [Function.comp_def]

structure LogStep (pc pc' : RPC α β) (acc : List (Bool × Loc)) : Prop where
  look : ∀ f, CanLook f pc' → CanLook f pc
  assign : ∀ f, CanAssign f pc' → CanAssign f pc
  own : ∀ a ∈ acc, ∃ f, Touches f a.2 ∧ CanLook f pc ∧ (a.1 = true → CanAssign f pc)
  must : ∀ f, StillMust f pc → (false, .header f) ∈ acc ∨ StillMust f pc'

theorem logStep [Inhabited α] {pool pool' : Nat → Pool α} {pc pc' : RPC α β} {acc : List (Bool × Loc)} (h : rstep pool pc = some (pool', pc', acc)) : LogStep pc pc' acc := by
  cases pc with
  | at_ p =>
    cases p with
    | ret r =>
      simp only [rstep, Option.some.injEq, Prod.mk.injEq] at h; obtain ⟨rfl, rfl, rfl⟩ := h
      exact ⟨fun _ h => h, fun _ h => h, by simp, fun _ h => .inr h⟩
    | panic => cases h
    | count f k =>
      simp only [rstep, Option.some.injEq, Prod.mk.injEq] at h; obtain ⟨rfl, rfl, rfl⟩ := h
      refine ⟨fun _ h => .count' _ h, fun _ h => .count' _ h, ?_, ?_⟩
      · intro a ha; rw [List.mem_singleton] at ha; subst ha; exact ⟨f, .inl rfl, .count, fun h => by cases h⟩
      · intro f' h
        cases h with
        | count => exact .inl (by simp)
        | count' h => exact .inr (h _)
    | elem f i k =>
      simp only [rstep] at h
      split_ifs at h
      simp only [Option.some.injEq, Prod.mk.injEq] at h; obtain ⟨rfl, rfl, rfl⟩ := h
      refine ⟨?_, fun _ ⟨x, h⟩ => .elem' x h, ?_, ?_⟩
      · rintro f' (rfl | ⟨x, h⟩)
        · exact .elem
        · exact .elem' x h
      · intro a ha; rw [List.mem_singleton] at ha; subst ha; exact ⟨f, .inl rfl, .elem, fun h => by cases h⟩
      · intro f' h
        cases h with
        | elem => exact .inl (by simp)
        | elem' h => exact .inr h
    | range f k =>
      simp only [rstep, Option.some.injEq, Prod.mk.injEq] at h; obtain ⟨rfl, rfl, rfl⟩ := h
      refine ⟨?_, fun _ ⟨x, h⟩ => .range' x h, ?_, ?_⟩
      · rintro f' (rfl | ⟨x, h⟩)
        · exact .range
        · exact .range' x h
      · intro a ha; rw [List.mem_singleton] at ha; subst ha; exact ⟨f, .inl rfl, .range, fun h => by cases h⟩
      · intro f' h
        cases h with
        | range => exact .inl (by simp)
        | range' h => exact .inr h
    | assign fs k =>
      simp only [rstep, Option.some.injEq, Prod.mk.injEq] at h; obtain ⟨rfl, rfl, rfl⟩ := h
      refine ⟨?_, ?_, ?_, ?_⟩
      · rintro f (h | h)
        · rw [map_fst_map] at h; exact .assign h
        · exact .assign' h
      · rintro f (h | h)
        · rw [map_fst_map] at h; exact .assign h
        · exact .assign' h
      · intro a ha
        obtain ⟨f, hf, rfl⟩ := List.mem_map.1 ha
        exact ⟨f, .inl rfl, .assign hf, fun h => by cases h⟩
      · intro f' h
        cases h with
        | assign h => exact .inl (List.mem_map.2 ⟨f', h, rfl⟩)
        | assign' h => exact .inr h
  | pick f i hd k =>
    simp only [rstep, Option.some.injEq, Prod.mk.injEq] at h; obtain ⟨rfl, rfl, rfl⟩ := h
    refine ⟨fun _ h => .inr ⟨_, h⟩, fun _ h => ⟨_, h⟩, ?_, fun _ h => .inr (h _)⟩
    intro a ha; rw [List.mem_singleton] at ha; subst ha; exact ⟨f, .inr ⟨_, _, rfl⟩, .inl rfl, fun h => by cases h⟩
  | walk f hd ac k =>
    simp only [rstep] at h
    split_ifs at h with c
    · simp only [Option.some.injEq, Prod.mk.injEq] at h; obtain ⟨rfl, rfl, rfl⟩ := h
      refine ⟨fun _ h => h, fun _ h => h, ?_, fun _ h => .inr h⟩
      intro a ha; rw [List.mem_singleton] at ha; subst ha; exact ⟨f, .inr ⟨_, _, rfl⟩, .inl rfl, fun h => by cases h⟩
    · simp only [Option.some.injEq, Prod.mk.injEq] at h; obtain ⟨rfl, rfl, rfl⟩ := h
      exact ⟨fun _ h => .inr ⟨_, h⟩, fun _ h => ⟨_, h⟩, by simp, fun _ h => .inr (h _)⟩
  | hold hs k =>
    simp only [rstep, Option.some.injEq, Prod.mk.injEq] at h; obtain ⟨rfl, rfl, rfl⟩ := h
    refine ⟨fun _ h => .inr h, fun _ h => .inr h, ?_, fun _ h => .inr h⟩
    intro a ha
    obtain ⟨b, hb, rfl⟩ := List.mem_map.1 ha
    have : b.1 ∈ hs.map Prod.fst := List.mem_map.2 ⟨b, hb, rfl⟩
    exact ⟨b.1, .inl rfl, .inl this, fun _ => .inl this⟩

structure MixLog (jobs : List (Nat × α)) (progs : List (Prog α β)) (s : Sys α β) : Prop where
  same : s.app.threads.map (fun th => (th.field, th.elem)) = jobs
  calls : ∀ i pc, s.calls[i]? = some pc → ∃ p0, progs[i]? = some p0 ∧ (∀ f, CanLook f pc → MayLook f p0) ∧ (∀ f, CanAssign f pc → MayAssign f p0) ∧
    ∀ f, MustLook f p0 → ⟨jobs.length + i, false, .header f⟩ ∈ s.app.log ∨ StillMust f pc
  own : ∀ a ∈ s.app.log, ∃ f, Touches f a.loc ∧ Uses jobs progs f a.by_ ∧ (a.write = true → Replaces jobs progs f a.by_)
  stored : ∀ (t : Nat) (th : Build.Thread α), s.app.threads[t]? = some th → th.pc = .done → ⟨t, true, .header th.field⟩ ∈ s.app.log

theorem mixLog_start (pool : Nat → Pool α) (jobs : List (Nat × α)) (progs : List (Prog α β)) : MixLog jobs progs (start pool jobs progs) where
  same := by simp [start, Build.start, Function.comp_def]
  calls := by
    intro i pc h
    simp only [start, List.getElem?_map, Option.map_eq_some_iff] at h
    obtain ⟨p, hp, rfl⟩ := h
    exact ⟨p, hp, fun _ h => h, fun _ h => h, fun _ h => .inr h⟩
  own := by simp [start, Build.start]
  stored := by
    intro t th h hd
    simp only [start, Build.start, List.getElem?_map, Option.map_eq_some_iff] at h
    obtain ⟨j, -, rfl⟩ := h
    cases hd

theorem mixLog_step [Inhabited α] (g : Nat → Nat) {jobs : List (Nat × α)} {progs : List (Prog α β)} {s : Sys α β} (I : MixLog jobs progs s) (t : Nat) : MixLog jobs progs (step g s t) := by
  have tl : s.app.threads.length = jobs.length := by simpa using congrArg List.length I.same
  unfold step
  split_ifs with c1 c2
  · exact I
  · obtain ⟨th, ht⟩ : ∃ th, s.app.threads[t]? = some th := ⟨_, List.getElem?_eq_getElem c2⟩
    have hj : jobs[t]? = some (th.field, th.elem) := by rw [← I.same, List.getElem?_map, ht]; rfl
    unfold Build.step
    rw [ht]
    dsimp only
    refine ⟨?_, ?_, ?_, ?_⟩
    · rw [List.map_set, ← I.same]
      apply List.ext_getElem?
      intro u
      rw [List.getElem?_set]
      split_ifs with d1 d2
      · subst d1; rw [List.getElem?_map, ht]; rfl
      · subst d1; rw [List.getElem?_eq_none (by simpa using d2)]
      · rfl
    · intro i pc h
      obtain ⟨p0, h0, h1, h2, h3⟩ := I.calls i pc h
      exact ⟨p0, h0, h1, h2, fun f hf => (h3 f hf).imp (List.mem_append_left _) id⟩
    · intro a ha
      rcases List.mem_append.1 ha with ha | ha
      · exact I.own a ha
      · obtain ⟨b, hb, rfl⟩ := List.mem_map.1 ha
        refine ⟨th.field, ?_, .inl ⟨_, hj⟩, fun _ => .inl ⟨_, hj⟩⟩
        dsimp only
        generalize th.pc = pc at hb
        cases pc with
        | load => simp [Build.pcStep] at hb; subst hb; exact .inl rfl
        | place s' =>
          simp only [Build.pcStep] at hb
          split_ifs at hb
          · simp at hb; subst hb; exact .inr ⟨_, _, rfl⟩
          · simp at hb
        | copy s' acc =>
          simp only [Build.pcStep] at hb
          split_ifs at hb
          · simp at hb; subst hb; exact .inr ⟨_, _, rfl⟩
          · simp at hb
        | store k => simp [Build.pcStep] at hb; subst hb; exact .inl rfl
        | done => simp [Build.pcStep] at hb
    · intro u tu hu hd
      by_cases c : u = t
      · subst c
        rw [List.getElem?_set_self c2] at hu
        cases hu
        dsimp only at hd ⊢
        have hst := I.stored u th ht
        generalize th.pc = pc at hd hst ⊢
        cases pc with
        | load => simp [Build.pcStep] at hd
        | place s' => simp only [Build.pcStep] at hd; split_ifs at hd
        | copy s' acc => simp only [Build.pcStep] at hd; split_ifs at hd
        | store k => simp [Build.pcStep]
        | done => exact List.mem_append_left _ (hst rfl)
      · rw [List.getElem?_set_ne (Ne.symm c)] at hu
        exact List.mem_append_left _ (I.stored u tu hu hd)
  · rcases hc : s.calls[t - s.app.threads.length]? with _ | pc
    · exact I
    dsimp only
    rcases hr : rstep s.app.pool pc with _ | ⟨pool', pc', acc⟩
    · exact ⟨I.same, I.calls, I.own, I.stored⟩
    have L := logStep hr
    obtain ⟨p0, h0, h1, h2, h3⟩ := I.calls _ pc hc
    have et : jobs.length + (t - s.app.threads.length) = t := by omega
    refine ⟨I.same, ?_, ?_, ?_⟩
    · intro i q hq
      dsimp only at hq ⊢
      by_cases ci : i = t - s.app.threads.length
      · subst ci
        rw [List.getElem?_set_self (List.getElem?_eq_some_iff.1 hc).1] at hq
        cases hq
        refine ⟨p0, h0, fun f h => h1 f (L.look f h), fun f h => h2 f (L.assign f h), fun f h => ?_⟩
        rcases h3 f h with k | k
        · exact .inl (List.mem_append_left _ k)
        · rcases L.must f k with k | k
          · exact .inl (List.mem_append_right _ (List.mem_map.2 ⟨_, k, by rw [et]⟩))
          · exact .inr k
      · rw [List.getElem?_set_ne (Ne.symm ci)] at hq
        obtain ⟨p0, h0, h1, h2, h3⟩ := I.calls i q hq
        exact ⟨p0, h0, h1, h2, fun f hf => (h3 f hf).imp (List.mem_append_left _) id⟩
    · intro a ha
      rcases List.mem_append.1 ha with ha | ha
      · exact I.own a ha
      · obtain ⟨b, hb, rfl⟩ := List.mem_map.1 ha
        obtain ⟨f, k1, k2, k3⟩ := L.own b hb
        exact ⟨f, k1, .inr ⟨_, p0, et.symm, h0, h1 f k2⟩, fun hw => .inr ⟨_, p0, et.symm, h0, h2 f (k3 hw)⟩⟩
    · intro u tu hu hd
      exact List.mem_append_left _ (I.stored u tu hu hd)

theorem mixLog_run [Inhabited α] (g : Nat → Nat) {jobs : List (Nat × α)} {progs : List (Prog α β)} : ∀ (sch : List Nat) {s : Sys α β}, MixLog jobs progs s → MixLog jobs progs (run g s sch)
  | [], _, h => h
  | t :: sch, _, h => mixLog_run g sch (mixLog_step g h t)

end Verif.Mix
