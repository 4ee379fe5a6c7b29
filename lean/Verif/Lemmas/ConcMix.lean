import Verif.Lemmas.ConcBuild
import Verif.Spec.ConcMix
import Verif.Props.ConcBuild
/-! # Invariants of calls beside goroutines that add -/
namespace Verif.Mix
open Verif Verif.Spec
open Verif.Build (Pool Loc Access Good Shown EntOK TInv PC)
open Verif.Obj (RefSlice)

variable {α β : Type}

/-! ## The goroutines that add -/

/-- The invariant of variable `f` (as `Build.Inv`, without the part that an assignment destroys). -/
structure WInv (jobs : List (Nat × α)) (f : Nat) (B : List α) (slot : Nat → Option Nat) (s : Build.Sys α) : Prop where
  same : s.threads.map (fun th => (th.field, th.elem)) = jobs
  hdr : Good jobs slot f B (s.pool f) (s.pool f).hdr
  thr : ∀ t th, s.threads[t]? = some th → th.field = f → th.pc ≠ .done → TInv jobs slot f B (s.pool f) t th.pc

variable {jobs : List (Nat × α)} {slot : Nat → Option Nat} {f : Nat} {B : List α}

theorem TInv.pool' {P P' : Pool α} (hg : ∀ s, Good jobs slot f B P s → Good jobs slot f B P' s) {t : Nat} {pc : PC α} (hd : pc ≠ .done)
    (i : TInv jobs slot f B P t pc) : TInv jobs slot f B P' t pc := by
  cases pc with
  | load => exact i
  | place s => exact ⟨hg _ i.1, i.2⟩
  | copy s acc => exact ⟨hg _ i.1, i.2⟩
  | store s => exact ⟨hg _ i.1, i.2⟩
  | done => exact absurd rfl hd

theorem same_set {s : Build.Sys α} {t : Nat} {th : Build.Thread α} (ht : s.threads[t]? = some th) (hs : s.threads.map (fun th => (th.field, th.elem)) = jobs) (pc : PC α) :
    (s.threads.set t { th with pc := pc }).map (fun th => (th.field, th.elem)) = jobs := by
  rw [List.map_set, ← hs]
  apply List.ext_getElem?
  intro u
  rw [List.getElem?_set]
  split_ifs with c1 c2
  · subst c1; rw [List.getElem?_map, ht]; rfl
  · subst c1; rw [List.getElem?_eq_none (by omega)]
  · rfl

theorem winv_step [Inhabited α] (g : Nat → Nat) {s : Build.Sys α} (I : WInv jobs f B slot s) (t : Nat) : ∃ slot', WInv jobs f B slot' (Build.step g s t) ∧
    (∀ u p, slot u = some p → slot' u = some p) ∧ (∀ h, Good jobs slot f B (s.pool f) h → Good jobs slot' f B ((Build.step g s t).pool f) h) := by
  unfold Build.step
  rcases ht : s.threads[t]? with _ | th
  · exact ⟨slot, I, fun _ _ h => h, fun _ h => h⟩
  dsimp only
  have hjobs := same_set ht I.same (Build.pcStep g th.field th.elem (s.pool th.field) th.pc).2.1
  have hset : ∀ pc, (s.threads.set t { th with pc := pc })[t]? = some { th with pc := pc } := fun pc => List.getElem?_set_self (List.getElem?_eq_some_iff.1 ht).1
  by_cases hf : th.field = f
  · subst hf
    have hj : jobs[t]? = some (th.field, th.elem) := by rw [← I.same, List.getElem?_map, ht]; rfl
    by_cases hd : th.pc = .done
    · refine ⟨slot, ⟨hjobs, ?_, ?_⟩, fun _ _ h => h, fun h hh => ?_⟩
      · simp only [if_pos]; rw [hd]; exact I.hdr
      · intro u thu hu hfu hnd
        simp only [if_pos]
        rw [hd]
        by_cases hut : u = t
        · subst hut
          rw [hset] at hu; cases hu
          dsimp only at hnd
          rw [hd] at hnd
          exact absurd rfl hnd
        · rw [List.getElem?_set_ne (Ne.symm hut)] at hu
          exact I.thr u thu hu hfu hnd
      · simp only [if_pos]; rw [hd]; exact hh
    · obtain ⟨slot', m1, m2, k1, k2, k3, -⟩ := Build.step_field g hj I.hdr (I.thr t th ht rfl hd)
      refine ⟨slot', ⟨hjobs, by simpa using k1, ?_⟩, m1, fun h hh => by simpa using k3 h (hh.mono m1)⟩
      intro u thu hu hfu hnd
      simp only [if_pos]
      by_cases hut : u = t
      · subst hut
        rw [hset] at hu; cases hu
        exact k2
      · rw [List.getElem?_set_ne (Ne.symm hut)] at hu
        exact TInv.pool' k3 hnd ((I.thr u thu hu hfu hnd).mono m1 (m2 u hut))
  · refine ⟨slot, ⟨hjobs, ?_, ?_⟩, fun _ _ h => h, fun h hh => ?_⟩
    · simp only [if_neg (Ne.symm hf)]; exact I.hdr
    · intro u thu hu hfu hnd
      simp only [if_neg (Ne.symm hf)]
      by_cases hut : u = t
      · subst hut
        rw [hset] at hu; cases hu
        exact absurd hfu hf
      · rw [List.getElem?_set_ne (Ne.symm hut)] at hu
        exact I.thr u thu hu hfu hnd
    · simp only [if_neg (Ne.symm hf)]; exact hh

theorem winv_start (pool : Nat → Pool α) (jobs : List (Nat × α)) (f : Nat) (h : SliceOK (pool f)) : WInv jobs f (pool f).val (fun _ => none) (Build.start pool jobs) :=
  let I := Build.inv_start pool jobs f h
  ⟨I.same, I.hdr, fun t th h1 h2 _ => I.thr t th h1 h2⟩

/-- Storing a good header keeps the invariant. -/
theorem winv_store {s : Build.Sys α} (I : WInv jobs f B slot s) (pool' : Nat → Pool α) (log : List Access)
    (hp : pool' f = s.pool f ∨ ∃ h, Good jobs slot f B (s.pool f) h ∧ pool' f = { s.pool f with hdr := h }) :
    WInv jobs f B slot { s with pool := pool', log := log } ∧ (∀ h, Good jobs slot f B (s.pool f) h → Good jobs slot f B (pool' f) h) := by
  have hg : ∀ h, Good jobs slot f B (s.pool f) h → Good jobs slot f B (pool' f) h := by
    intro h hh
    rcases hp with e | ⟨k, -, e⟩
    · rw [e]; exact hh
    · rw [e]; exact hh.hdr k
  refine ⟨⟨I.same, ?_, fun t th h1 h2 h3 => TInv.pool' hg h3 (I.thr t th h1 h2 h3)⟩, hg⟩
  dsimp only
  rcases hp with e | ⟨k, hk, e⟩
  · rw [e]; exact I.hdr
  · rw [e]; exact hk.hdr k

/-! ## What can be found -/

/-- What a look at variable `f` can find: what was there at the start, followed by elements of some goroutines, each once. -/
def Poss (jobs : List (Nat × α)) (B : Nat → List α) (f : Nat) (l : List α) : Prop := ∃ ts, Outcome jobs f (B f) ts l

theorem shown_outcome {l : List α} (h : Shown jobs slot f B l) (hl : B.length ≤ l.length) : ∃ ts, Outcome jobs f B ts l := by
  have hB : l = B ++ l.drop B.length := by
    have : l.take B.length = B := by
      apply List.ext_getElem?
      intro i
      rw [List.getElem?_take]
      split_ifs with c
      · have hi : i < l.length := by omega
        have := h i _ (List.getElem?_eq_getElem hi)
        unfold EntOK at this
        rw [if_pos c] at this
        rw [this, List.getElem?_eq_getElem hi]
      · rw [List.getElem?_eq_none (by omega)]
    conv_lhs => rw [← List.take_append_drop B.length l, this]
  obtain ⟨ts, k1, k2, -⟩ := Props.choose_threads (jobs := jobs) (slot := slot) (f := f) (l.drop B.length) B.length (fun i x hx => by
    rw [List.getElem?_drop] at hx
    have := h _ x hx
    unfold EntOK at this
    rwa [if_neg (by omega)] at this)
  exact ⟨ts, k2, _, k1, hB⟩

theorem elems_length {P : Pool α} {h : RefSlice} (hg : Good jobs slot f B P h) : (P.elems h).length = h.len := by
  simp only [Pool.elems, List.length_take]
  have := hg.len; have := hg.cap; omega

theorem good_poss {P : Pool α} {h : RefSlice} (hg : Good jobs slot f B P h) : ∃ ts, Outcome jobs f B ts (P.elems h) :=
  shown_outcome hg.ent (by rw [elems_length hg]; exact hg.base)

theorem elems_get [Inhabited α] {P : Pool α} {h : RefSlice} (hg : Good jobs slot f B P h) {i : Nat} (hi : i < h.len) : (P.elems h)[i]? = some ((P.arrays.getD h.arr []).getD i default) := by
  have hn : i < (P.arrays.getD h.arr []).length := Nat.lt_of_lt_of_le hi (Nat.le_trans hg.len hg.cap)
  unfold Pool.elems
  rw [List.getElem?_take, if_pos hi]
  generalize P.arrays.getD h.arr [] = X at hn ⊢
  simp [List.getD_eq_getElem?_getD, hn]

/-! ## Every schedule -/

/-- What a call holds at any moment, as far as variable `f` is concerned. -/
def RInv (jobs : List (Nat × α)) (slot : Nat → Option Nat) (f : Nat) (B : List α) (P : Pool α) : RPC α β → Prop
  | .at_ _ => True
  | .pick f' i h _ => f' = f → Good jobs slot f B P h ∧ i < h.len
  | .walk f' h acc _ => f' = f → Good jobs slot f B P h ∧ acc.length ≤ h.len ∧ Shown jobs slot f B acc
  | .hold hs _ => ∀ h, hs.lookup f = some h → Good jobs slot f B P h

theorem RInv.keep {slot' : Nat → Option Nat} {P P' : Pool α} (hs : ∀ u p, slot u = some p → slot' u = some p)
    (hg : ∀ h, Good jobs slot f B P h → Good jobs slot' f B P' h) {pc : RPC α β} (h : RInv jobs slot f B P pc) : RInv jobs slot' f B P' pc := by
  cases pc with
  | at_ p => trivial
  | pick f' i hd k => exact fun e => ⟨hg _ (h e).1, (h e).2⟩
  | walk f' hd acc k => exact fun e => ⟨hg _ (h e).1, (h e).2.1, (h e).2.2.mono hs⟩
  | hold hs' k => exact fun hd e => hg _ (h hd e)

theorem Finds.mono {P : Nat → Nat → List α → Prop} {n : Nat} {p : Prog α β} {r : Res β} (h : Finds P n p r) : ∀ {m : Nat}, m ≤ n → Finds P m p r := by
  induction h with
  | ret => exact fun _ => .ret
  | panic => exact fun _ => .panic
  | count h1 h2 h3 _ => exact fun hm => .count (Nat.le_trans hm h1) h2 h3
  | elem h1 h2 h3 h4 _ => exact fun hm => .elem (Nat.le_trans hm h1) h2 h3 h4
  | beyond h1 h2 h3 => exact fun hm => .beyond (Nat.le_trans hm h1) h2 h3
  | range h1 h2 h3 _ => exact fun hm => .range (Nat.le_trans hm h1) h2 h3
  | assign _ ih => exact fun hm => .assign (ih hm)

/-- When it does not matter at which moment one looks, the moments do not matter. -/
theorem Finds.shift {P : Nat → Nat → List α → Prop} (hP : ∀ j j' f l, P j f l → P j' f l) {n : Nat} {p : Prog α β} {r : Res β} (h : Finds P n p r) : ∀ m, Finds P m p r := by
  induction h with
  | ret => exact fun _ => .ret
  | panic => exact fun _ => .panic
  | count h1 h2 h3 ih => exact fun m => .count (Nat.le_refl m) (hP _ _ _ _ h2) (ih _)
  | elem h1 h2 h3 h4 ih => exact fun m => .elem (Nat.le_refl m) (hP _ _ _ _ h2) h3 (ih _)
  | beyond h1 h2 h3 => exact fun m => .beyond (Nat.le_refl m) (hP _ _ _ _ h2) h3
  | range h1 h2 h3 ih => exact fun m => .range (Nat.le_refl m) (hP _ _ _ _ h2) (ih _)
  | assign _ ih => exact fun m => .assign (ih m)

theorem Finds.imp {P Q : Nat → Nat → List α → Prop} (hP : ∀ j f l, P j f l → Q j f l) {n : Nat} {p : Prog α β} {r : Res β} (h : Finds P n p r) : Finds Q n p r := by
  induction h with
  | ret => exact .ret
  | panic => exact .panic
  | count h1 h2 h3 ih => exact .count h1 (hP _ _ _ h2) ih
  | elem h1 h2 h3 h4 ih => exact .elem h1 (hP _ _ _ h2) h3 ih
  | beyond h1 h2 h3 => exact .beyond h1 (hP _ _ _ h2) h3
  | range h1 h2 h3 ih => exact .range h1 (hP _ _ _ h2) ih
  | assign _ ih => exact .assign ih

/-- If every look finds the same, the call does what it does alone. -/
theorem Finds.alone {P : Nat → Nat → List α → Prop} {v : Nat → List α} (hP : ∀ j f l, P j f l → l = v f) {n : Nat} {p : Prog α β} {r : Res β} (h : Finds P n p r) : Spec.alone v p = r := by
  induction h with
  | ret => rfl
  | panic => rfl
  | count h1 h2 h3 ih => unfold Spec.alone; rw [← hP _ _ _ h2]; exact ih
  | elem h1 h2 h3 h4 ih => unfold Spec.alone; rw [← hP _ _ _ h2, h3]; exact ih
  | beyond h1 h2 h3 => unfold Spec.alone; rw [← hP _ _ _ h2, List.getElem?_eq_none h3]
  | range h1 h2 h3 ih => unfold Spec.alone; rw [← hP _ _ _ h2]; exact ih
  | assign _ ih => unfold Spec.alone; exact ih

/-- What has been found so far, in any schedule. -/
def Hist (jobs : List (Nat × α)) (B : Nat → List α) (p0 : Prog α β) : RPC α β → Prop
  | .at_ p => ∀ r, Finds (fun _ => Poss jobs B) 0 p r → Finds (fun _ => Poss jobs B) 0 p0 r
  | .pick f i _ k => ∀ r l x, Poss jobs B f l → l[i]? = some x → Finds (fun _ => Poss jobs B) 0 (k x) r → Finds (fun _ => Poss jobs B) 0 p0 r
  | .walk f _ _ k => ∀ r l, Poss jobs B f l → Finds (fun _ => Poss jobs B) 0 (k l) r → Finds (fun _ => Poss jobs B) 0 p0 r
  | .hold _ k => ∀ r, Finds (fun _ => Poss jobs B) 0 k r → Finds (fun _ => Poss jobs B) 0 p0 r

theorem lookup_map (fs : List Nat) (g : Nat → RefSlice) (f : Nat) (h : RefSlice) (e : (fs.map fun x => (x, g x)).lookup f = some h) : h = g f ∧ f ∈ fs := by
  induction fs with
  | nil => cases e
  | cons x fs ih =>
    simp only [List.map_cons, List.lookup_cons] at e
    by_cases c : f = x
    · subst c; simp at e; exact ⟨e.symm, by simp⟩
    · rw [beq_false_of_ne c] at e
      exact ⟨(ih e).1, List.mem_cons_of_mem _ (ih e).2⟩

variable [Inhabited α]

/-- One step of a call: what it holds stays good, what it finds is possible, and a header that is stored is good. -/
theorem rstep_inv {B : Nat → List α} {pool : Nat → Pool α} {slots : Nat → Nat → Option Nat} (hI : ∀ f, Good jobs (slots f) f (B f) (pool f) (pool f).hdr) {pc pc' : RPC α β} {pool' : Nat → Pool α}
    {acc : List (Bool × Loc)} (h : rstep pool pc = some (pool', pc', acc)) (hr : ∀ f, RInv jobs (slots f) f (B f) (pool f) pc) (p0 : Prog α β) (hh : Hist jobs B p0 pc) :
    (∀ f, pool' f = pool f ∨ ∃ h, Good jobs (slots f) f (B f) (pool f) h ∧ pool' f = { pool f with hdr := h }) ∧ (∀ f, RInv jobs (slots f) f (B f) (pool f) pc') ∧ Hist jobs B p0 pc' := by
  have val : ∀ f, Poss jobs B f (pool f).val := fun f => good_poss (hI f)
  have vlen : ∀ f, (pool f).val.length = (pool f).hdr.len := fun f => elems_length (hI f)
  have same : ∀ f, pool f = pool f ∨ ∃ h, Good jobs (slots f) f (B f) (pool f) h ∧ pool f = { pool f with hdr := h } := fun f => .inl rfl
  have sh : ∀ {n : Nat} {p : Prog α β} {r : Res β}, Finds (fun _ => Poss jobs B) 0 p r → Finds (fun _ => Poss jobs B) n p r := fun h => Finds.shift (fun _ _ _ _ h => h) h _
  cases pc with
  | at_ p =>
    cases p with
    | ret r => simp only [rstep, Option.some.injEq, Prod.mk.injEq] at h; obtain ⟨rfl, rfl, -⟩ := h; exact ⟨same, hr, hh⟩
    | panic => cases h
    | count f k =>
      simp only [rstep, Option.some.injEq, Prod.mk.injEq] at h; obtain ⟨rfl, rfl, -⟩ := h
      exact ⟨same, fun _ => trivial, fun r hf => hh r (.count (Nat.le_refl _) (val f) (by rw [vlen]; exact sh hf))⟩
    | elem f i k =>
      simp only [rstep] at h
      split_ifs at h with c
      simp only [Option.some.injEq, Prod.mk.injEq] at h; obtain ⟨rfl, rfl, -⟩ := h
      refine ⟨same, fun f' e => ?_, fun r l x hl hx hf => hh r (.elem (Nat.le_refl _) hl hx (sh hf))⟩
      subst e; exact ⟨hI _, c⟩
    | range f k =>
      simp only [rstep, Option.some.injEq, Prod.mk.injEq] at h; obtain ⟨rfl, rfl, -⟩ := h
      refine ⟨same, fun f' e => ?_, fun r l hl hf => hh r (.range (Nat.le_refl _) hl (sh hf))⟩
      subst e; exact ⟨hI _, Nat.zero_le _, fun p x hx => by simp at hx⟩
    | assign fs k =>
      simp only [rstep, Option.some.injEq, Prod.mk.injEq] at h; obtain ⟨rfl, rfl, -⟩ := h
      refine ⟨same, fun f' hd e => ?_, fun r hf => hh r (.assign hf)⟩
      obtain ⟨rfl, -⟩ := lookup_map fs (fun f => (pool f).hdr) f' hd e
      exact hI f'
  | pick f i hd k =>
    simp only [rstep, Option.some.injEq, Prod.mk.injEq] at h; obtain ⟨rfl, rfl, -⟩ := h
    obtain ⟨hg, hi⟩ := hr f rfl
    exact ⟨same, fun _ => trivial, fun r hf => hh r _ _ (good_poss hg) (elems_get hg hi) hf⟩
  | walk f hd acc k =>
    obtain ⟨hg, hl, hs⟩ := hr f rfl
    simp only [rstep] at h
    split_ifs at h with c
    · simp only [Option.some.injEq, Prod.mk.injEq] at h; obtain ⟨rfl, rfl, -⟩ := h
      refine ⟨same, fun f' e => ?_, hh⟩
      subst e
      exact ⟨hg, by simp; omega, Build.shown_snoc hs (hg.ent _ _ (elems_get hg c))⟩
    · simp only [Option.some.injEq, Prod.mk.injEq] at h; obtain ⟨rfl, rfl, -⟩ := h
      exact ⟨same, fun _ => trivial, fun r hf => hh r _ (shown_outcome hs (by have := hg.base; omega)) hf⟩
  | hold hs k =>
    simp only [rstep, Option.some.injEq, Prod.mk.injEq] at h; obtain ⟨rfl, rfl, -⟩ := h
    refine ⟨fun f => ?_, fun _ => trivial, hh⟩
    unfold restore
    rcases e : hs.lookup f with _ | hd
    · exact .inl rfl
    · exact .inr ⟨hd, hr f hd e, rfl⟩

/-- The invariant of the whole program. -/
structure MInv (jobs : List (Nat × α)) (B : Nat → List α) (slots : Nat → Nat → Option Nat) (progs : List (Prog α β)) (s : Sys α β) : Prop where
  app : ∀ f, WInv jobs f (B f) (slots f) s.app
  len : s.calls.length = progs.length
  calls : ∀ (i : Nat) pc, s.calls[i]? = some pc → ∀ f, RInv jobs (slots f) f (B f) (s.app.pool f) pc
  hist : ∀ (i : Nat) pc p0, s.calls[i]? = some pc → progs[i]? = some p0 → Hist jobs B p0 pc

theorem minv_step (g : Nat → Nat) {B : Nat → List α} {slots : Nat → Nat → Option Nat} {progs : List (Prog α β)} {s : Sys α β} (I : MInv jobs B slots progs s) (t : Nat) :
    ∃ slots', MInv jobs B slots' progs (step g s t) := by
  unfold step
  split_ifs with c1 c2
  · exact ⟨slots, I⟩
  · have key := fun f => winv_step g (I.app f) t
    choose slots' h1 h2 h3 using key
    exact ⟨slots', h1, I.len, fun i pc hi f => (I.calls i pc hi f).keep (h2 f) (h3 f), I.hist⟩
  · rcases hc : s.calls[t - s.app.threads.length]? with _ | pc
    · exact ⟨slots, I⟩
    dsimp only
    rcases hs : rstep s.app.pool pc with _ | ⟨pool', pc', acc⟩
    · exact ⟨slots, I.app, I.len, I.calls, I.hist⟩
    dsimp only
    obtain ⟨p0, hp0⟩ : ∃ p0, progs[t - s.app.threads.length]? = some p0 := ⟨_, List.getElem?_eq_getElem (by rw [← I.len]; exact (List.getElem?_eq_some_iff.1 hc).1)⟩
    obtain ⟨k1, k2, k3⟩ := rstep_inv (fun f => (I.app f).hdr) hs (I.calls _ pc hc) p0 (I.hist _ pc p0 hc hp0)
    have k4 := fun f => winv_store (I.app f) pool' (s.app.log ++ acc.map fun a => ⟨t, a.1, a.2⟩) (k1 f)
    refine ⟨slots, fun f => (k4 f).1, by simpa using I.len, ?_, ?_⟩
    · intro i x hx f
      by_cases e : i = t - s.app.threads.length
      · subst e
        rw [List.getElem?_set_self (List.getElem?_eq_some_iff.1 hc).1] at hx
        cases hx
        exact (k2 f).keep (fun _ _ h => h) (k4 f).2
      · rw [List.getElem?_set_ne (Ne.symm e)] at hx
        exact (I.calls i x hx f).keep (fun _ _ h => h) (k4 f).2
    · intro i x q hx hq
      by_cases e : i = t - s.app.threads.length
      · subst e
        rw [List.getElem?_set_self (List.getElem?_eq_some_iff.1 hc).1] at hx
        cases hx
        rw [hp0] at hq; cases hq
        exact k3
      · rw [List.getElem?_set_ne (Ne.symm e)] at hx
        exact I.hist i x q hx hq

theorem minv_run (g : Nat → Nat) {B : Nat → List α} {progs : List (Prog α β)} : ∀ (sch : List Nat) {s : Sys α β} {slots : Nat → Nat → Option Nat}, MInv jobs B slots progs s →
    ∃ slots', MInv jobs B slots' progs (run g s sch)
  | [], _, slots, h => ⟨slots, h⟩
  | t :: sch, _, _, h => by
    obtain ⟨slots', h'⟩ := minv_step g h t
    exact minv_run g sch h'

omit [Inhabited α] in
theorem minv_start (pool : Nat → Pool α) (ok : ∀ f, SliceOK (pool f)) (jobs : List (Nat × α)) (progs : List (Prog α β)) : MInv jobs (fun f => (pool f).val) (fun _ _ => none) progs (start pool jobs progs) where
  app := fun f => winv_start pool jobs f (ok f)
  len := by simp [start]
  calls := by
    intro i pc h
    simp only [start, List.getElem?_map, Option.map_eq_some_iff] at h
    obtain ⟨p, -, rfl⟩ := h
    exact fun _ => trivial
  hist := by
    intro i pc p0 h h0
    simp only [start, List.getElem?_map, h0, Option.map_some] at h
    cases h
    exact fun r h => h

/-- Call number `i` has ended with `r`: it has returned, or it panics next. -/
def EndsWith (s : Sys α β) (i : Nat) : Res β → Prop
  | .ok r => HasReturned s i r
  | .panic => ∃ pc, s.calls[i]? = some pc ∧ rstep s.app.pool pc = none
  | .err _ => False

/-- A call that has returned or is about to panic has found only what is possible. -/
theorem endsWith_finds {B : Nat → List α} {slots : Nat → Nat → Option Nat} {progs : List (Prog α β)} {s : Sys α β} (I : MInv jobs B slots progs s) {i : Nat} {p0 : Prog α β} (h0 : progs[i]? = some p0) {r : Res β}
    (h : EndsWith s i r) : Finds (fun _ => Poss jobs B) 0 p0 r := by
  match r, h with
  | .ok r, h => exact I.hist i _ p0 h h0 _ .ret
  | .panic, ⟨pc, h1, h2⟩ =>
    have hh := I.hist i pc p0 h1 h0
    cases pc with
    | at_ p =>
      cases p with
      | panic => exact hh _ .panic
      | elem f i k =>
        simp only [rstep] at h2
        split_ifs at h2 with c
        exact hh _ (.beyond (Nat.le_refl _) (good_poss (I.app f).hdr) (by rw [elems_length (I.app f).hdr]; omega))
      | ret r => cases h2
      | count f k => cases h2
      | range f k => cases h2
      | assign fs k => cases h2
    | pick f i hd k => cases h2
    | walk f hd acc k => simp only [rstep] at h2; split_ifs at h2
    | hold hs k => cases h2

end Verif.Mix
