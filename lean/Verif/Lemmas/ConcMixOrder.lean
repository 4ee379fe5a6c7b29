import Verif.Lemmas.ConcMix
/-! # Calls beside goroutines that add one after the other -/
namespace Verif.Mix
open Verif Verif.Spec
open Verif.Build (Pool Loc Access PC pcStep)
open Verif.Obj (RefSlice)

variable {α β : Type}

/-- `b` is `a` or a later header of the same variable. -/
def Ext (a b : RefSlice) : Prop := a.len ≤ b.len ∧ (a.len = 0 ∨ a.arr < b.arr ∨ a.arr = b.arr)

theorem Ext.refl (a : RefSlice) : Ext a a := ⟨Nat.le_refl _, .inr (.inr rfl)⟩

theorem Ext.trans {a b c : RefSlice} (h : Ext a b) (k : Ext b c) : Ext a c := by
  refine ⟨Nat.le_trans h.1 k.1, ?_⟩
  rcases h.2 with h2 | h2
  · exact .inl h2
  · by_cases c0 : a.len = 0
    · exact .inl c0
    · have := h.1
      rcases k.2 with k2 | k2
      · omega
      · exact .inr (by omega)

/-- A header that a program can hold. -/
def Fits (P : Pool α) (h : RefSlice) : Prop := h.len ≤ h.cap ∧ h.cap ≤ (P.arrays.getD h.arr []).length

theorem Fits.length {P : Pool α} {h : RefSlice} (w : Fits P h) : (P.elems h).length = h.len := by
  simp only [Pool.elems, List.length_take]
  have := w.1; have := w.2; omega

theorem Fits.lt {P : Pool α} {h : RefSlice} (w : Fits P h) (c : 0 < h.cap) : h.arr < P.arrays.length := by
  by_contra hc
  have := w.2
  rw [List.getD_eq_getElem?_getD, List.getElem?_eq_none (by omega)] at this
  simp at this; omega

theorem Fits.get [Inhabited α] {P : Pool α} {h : RefSlice} (w : Fits P h) {i : Nat} (hi : i < h.len) : (P.elems h)[i]? = some ((P.arrays.getD h.arr []).getD i default) := by
  have hn : i < (P.arrays.getD h.arr []).length := Nat.lt_of_lt_of_le hi (Nat.le_trans w.1 w.2)
  unfold Pool.elems
  rw [List.getElem?_take, if_pos hi]
  generalize P.arrays.getD h.arr [] = X at hn ⊢
  simp [List.getD_eq_getElem?_getD, hn]

/-- An addition that no other overlaps. -/
def AInv (P : Pool α) (e : α) : PC α → Prop
  | .place s => s = P.hdr
  | .copy s acc => s = P.hdr ∧ acc.length ≤ s.len ∧ acc = (P.elems s).take acc.length
  | .store h => Ext P.hdr h ∧ Fits P h ∧ P.elems h = P.val ++ [e]
  | _ => True

/-- The next step stores the header. -/
def Storing : PC α → Prop
  | .store _ => True
  | _ => False

instance : DecidablePred (Storing (α := α)) := fun pc => by cases pc <;> unfold Storing <;> infer_instance

theorem ainv_step [Inhabited α] (g : Nat → Nat) (f : Nat) {e : α} {P : Pool α} (w : SliceOK P) {pc : PC α} (h : AInv P e pc) :
    AInv (pcStep g f e P pc).1 e (pcStep g f e P pc).2.1 ∧ SliceOK (pcStep g f e P pc).1 ∧
    (∀ q, Ext q P.hdr → Fits P q → (pcStep g f e P pc).1.elems q = P.elems q ∧ Ext q (pcStep g f e P pc).1.hdr ∧ Fits (pcStep g f e P pc).1 q) ∧
    (pcStep g f e P pc).1.val = P.val ++ (if Storing pc then [e] else []) ∧ (¬ Storing pc → (pcStep g f e P pc).1.hdr = P.hdr) := by
  have same : ∀ q, Ext q P.hdr → Fits P q → P.elems q = P.elems q ∧ Ext q P.hdr ∧ Fits P q := fun q h1 h2 => ⟨rfl, h1, h2⟩
  have wF : Fits P P.hdr := w
  cases pc with
  | load => exact ⟨rfl, w, same, by simp [pcStep, Storing], fun _ => rfl⟩
  | place s =>
    obtain rfl : s = P.hdr := h
    unfold pcStep
    dsimp only
    split_ifs with c c2 c2
    · cases c2
    · have hlt := wF.lt (by omega)
      have hn : P.hdr.len < (P.arrays.getD P.hdr.arr []).length := Nat.lt_of_lt_of_le c w.2
      have old : ∀ q, Ext q P.hdr → Fits P q → Pool.elems { P with arrays := P.arrays.set P.hdr.arr ((P.arrays.getD P.hdr.arr []).set P.hdr.len e) } q = P.elems q := by
        intro q hq _
        unfold Pool.elems
        dsimp only
        rw [List.getD_eq_getElem?_getD, List.getElem?_set]
        split_ifs with d1
        · rw [Option.getD_some, List.take_set_of_le hq.1, d1]
        · rw [List.getD_eq_getElem?_getD]
      have wid : ∀ q, Fits P q → Fits { P with arrays := P.arrays.set P.hdr.arr ((P.arrays.getD P.hdr.arr []).set P.hdr.len e) } q := fun q hq => ⟨hq.1, by rw [Build.length_write]; exact hq.2⟩
      refine ⟨⟨⟨Nat.le_succ _, .inr (.inr rfl)⟩, ⟨c, by dsimp only; rw [Build.length_write]; exact w.2⟩, ?_⟩, wid _ wF, fun q h1 h2 => ⟨old q h1 h2, h1, wid q h2⟩, ?_, fun _ => rfl⟩
      · unfold Pool.val
        rw [old _ (Ext.refl _) wF]
        unfold Pool.elems
        dsimp only
        rw [List.getD_eq_getElem?_getD, List.getElem?_set_self hlt, Option.getD_some, List.take_add_one, List.getElem?_set_self hn, List.take_set_of_le (Nat.le_refl _)]
        rfl
      · rw [List.append_nil]
        exact old _ (Ext.refl _) wF
    · cases c2
    · exact ⟨⟨rfl, Nat.zero_le _, by simp⟩, w, same, by simp, fun _ => rfl⟩
  | copy s acc =>
    obtain ⟨rfl, hl, ha⟩ := h
    have hdl := wF.length
    unfold pcStep
    dsimp only
    split_ifs with c c2 c2
    · cases c2
    · refine ⟨⟨rfl, by simp; omega, ?_⟩, w, same, by simp, fun _ => rfl⟩
      have ha' : acc ++ [(P.arrays.getD P.hdr.arr []).getD acc.length default] = (P.elems P.hdr).take (acc.length + 1) := by
        rw [List.take_add_one, ← ha, wF.get c]
        rfl
      simpa using ha'
    · cases c2
    · have ev : P.val = acc := by unfold Pool.val; rw [ha, List.take_of_length_le (by omega)]
      have hal : acc.length = P.hdr.len := by omega
      have old : ∀ q, Fits P q → Pool.elems { P with arrays := P.arrays ++ [acc ++ [e] ++ List.replicate (g P.hdr.len) default] } q = P.elems q := by
        intro q hq
        by_cases c0 : q.len = 0
        · unfold Pool.elems; rw [c0]; simp
        · have hlt := hq.lt (by have := hq.1; omega)
          unfold Pool.elems
          dsimp only
          rw [Build.getD_push _ _ _ hlt]
      have wid : ∀ q, Fits P q → Fits { P with arrays := P.arrays ++ [acc ++ [e] ++ List.replicate (g P.hdr.len) default] } q := by
        intro q hq
        refine ⟨hq.1, ?_⟩
        by_cases c0 : q.cap = 0
        · omega
        · dsimp only
          rw [Build.getD_push _ _ _ (hq.lt (by omega))]
          exact hq.2
      have e1 : (P.arrays ++ [acc ++ [e] ++ List.replicate (g P.hdr.len) default]).getD P.arrays.length [] = acc ++ [e] ++ List.replicate (g P.hdr.len) default := by
        rw [List.getD_eq_getElem?_getD]; simp
      refine ⟨⟨⟨Nat.le_succ _, ?_⟩, ⟨by simp, by dsimp only; rw [e1]; simp [hal]; omega⟩, ?_⟩, wid _ wF, fun q h1 h2 => ⟨old q h2, h1, wid q h2⟩, ?_, fun _ => rfl⟩
      · by_cases c0 : P.hdr.len = 0
        · exact .inl c0
        · exact .inr (.inl (wF.lt (by have := w.1; omega)))
      · show _ = Pool.elems _ P.hdr ++ [e]
        rw [old _ wF, show P.elems P.hdr = acc from ev]
        unfold Pool.elems
        dsimp only
        rw [e1, List.take_append_of_le_length (by simp [hal]), List.take_of_length_le (by simp [hal])]
      · rw [List.append_nil]
        exact old _ wF
  | store h' =>
    obtain ⟨h1, h2, h3⟩ := h
    refine ⟨trivial, h2, fun q e wq => ⟨rfl, e.trans h1, wq⟩, ?_, fun hn => absurd trivial hn⟩
    rw [if_pos (show Storing (PC.store h') from trivial)]
    exact h3
  | done => exact ⟨trivial, w, same, by simp [pcStep, Storing], fun _ => rfl⟩

/-! ## Moments -/

/-- Goroutine `t` looks at moment `j` of the schedule and finds what is there. -/
def At [Inhabited α] (g : Nat → Nat) (s0 : Sys α β) (sch : List Nat) (t j f : Nat) (l : List α) : Prop := sch[j]? = some t ∧ l = (run g s0 (sch.take j)).val f

/-- What a call holds after `n` steps of the schedule, when additions do not overlap; what it has found is `P`. -/
def OInv (P : Nat → Nat → List α → Prop) (p0 : Prog α β) (n : Nat) (pool : Nat → Pool α) : RPC α β → Prop
  | .at_ p => ∀ r, Finds P n p r → Finds P 0 p0 r
  | .pick f i h k => Ext h (pool f).hdr ∧ Fits (pool f) h ∧ i < h.len ∧ ∀ r x, ((pool f).elems h)[i]? = some x → Finds P n (k x) r → Finds P 0 p0 r
  | .walk f h acc k => Ext h (pool f).hdr ∧ Fits (pool f) h ∧ acc.length ≤ h.len ∧ acc = ((pool f).elems h).take acc.length ∧ ∀ r, Finds P n (k ((pool f).elems h)) r → Finds P 0 p0 r
  | .hold hs k => (∀ f h, hs.lookup f = some h → h = (pool f).hdr) ∧ ∀ r, Finds P n k r → Finds P 0 p0 r

/-- Later, with variables that have only grown (and have not changed where the call holds the header for an assignment). -/
theorem OInv.keep {P : Nat → Nat → List α → Prop} {p0 : Prog α β} {n : Nat} {pool pool' : Nat → Pool α} {pc : RPC α β}
    (hg : ∀ f q, Ext q (pool f).hdr → Fits (pool f) q → (pool' f).elems q = (pool f).elems q ∧ Ext q (pool' f).hdr ∧ Fits (pool' f) q)
    (hh : ∀ hs k, pc = .hold hs k → ∀ f h, hs.lookup f = some h → (pool' f).hdr = (pool f).hdr) (h : OInv P p0 n pool pc) : OInv P p0 (n + 1) pool' pc := by
  cases pc with
  | at_ p => exact fun r hr => h r (Finds.mono hr (Nat.le_succ _))
  | pick f i hd k =>
    obtain ⟨h1, h2, h3, h4⟩ := h
    obtain ⟨k1, k2, k3⟩ := hg f hd h1 h2
    exact ⟨k2, k3, h3, fun r x hx hr => h4 r x (k1 ▸ hx) (Finds.mono hr (Nat.le_succ _))⟩
  | walk f hd acc k =>
    obtain ⟨h1, h2, h3, h4, h5⟩ := h
    obtain ⟨k1, k2, k3⟩ := hg f hd h1 h2
    exact ⟨k2, k3, h3, by rw [k1]; exact h4, fun r hr => h5 r (Finds.mono (k1 ▸ hr) (Nat.le_succ _))⟩
  | hold hs k =>
    refine ⟨fun f hd e => ?_, fun r hr => h.2 r (Finds.mono hr (Nat.le_succ _))⟩
    rw [hh hs k rfl f hd e]
    exact h.1 f hd e

variable [Inhabited α]

omit [Inhabited α] in
theorem restore_same {pool : Nat → Pool α} {hs : List (Nat × RefSlice)} (h : ∀ f h, hs.lookup f = some h → h = (pool f).hdr) : restore pool hs = pool := by
  funext f
  unfold restore
  rcases e : hs.lookup f with _ | hd
  · rfl
  · dsimp only
    rw [h f hd e]

/-- One step of a call at moment `n`: the variables do not change. -/
theorem ostep {P : Nat → Nat → List α → Prop} {p0 : Prog α β} {n : Nat} {pool pool' : Nat → Pool α} {pc pc' : RPC α β} {acc : List (Bool × Loc)} (w : ∀ f, SliceOK (pool f))
    (hP : ∀ f, P n f (pool f).val) (h : rstep pool pc = some (pool', pc', acc)) (hi : OInv P p0 n pool pc) : pool' = pool ∧ OInv P p0 (n + 1) pool pc' := by
  have wF : ∀ f, Fits (pool f) (pool f).hdr := w
  cases pc with
  | at_ p =>
    cases p with
    | ret r =>
      simp only [rstep, Option.some.injEq, Prod.mk.injEq] at h; obtain ⟨rfl, rfl, -⟩ := h
      exact ⟨rfl, fun r hr => hi r (Finds.mono hr (Nat.le_succ _))⟩
    | panic => cases h
    | count f k =>
      simp only [rstep, Option.some.injEq, Prod.mk.injEq] at h; obtain ⟨rfl, rfl, -⟩ := h
      refine ⟨rfl, fun r hr => hi r (.count (Nat.le_refl _) (hP f) ?_)⟩
      rw [show (pool f).val.length = (pool f).hdr.len from (wF f).length]; exact hr
    | elem f i k =>
      simp only [rstep] at h
      split_ifs at h with c
      simp only [Option.some.injEq, Prod.mk.injEq] at h; obtain ⟨rfl, rfl, -⟩ := h
      exact ⟨rfl, Ext.refl _, wF f, c, fun r x hx hr => hi r (.elem (Nat.le_refl _) (hP f) hx hr)⟩
    | range f k =>
      simp only [rstep, Option.some.injEq, Prod.mk.injEq] at h; obtain ⟨rfl, rfl, -⟩ := h
      exact ⟨rfl, Ext.refl _, wF f, Nat.zero_le _, by simp, fun r hr => hi r (.range (Nat.le_refl _) (hP f) hr)⟩
    | assign fs k =>
      simp only [rstep, Option.some.injEq, Prod.mk.injEq] at h; obtain ⟨rfl, rfl, -⟩ := h
      exact ⟨rfl, fun f hd e => (lookup_map fs (fun f => (pool f).hdr) f hd e).1, fun r hr => hi r (.assign (Finds.mono hr (Nat.le_succ _)))⟩
  | pick f i hd k =>
    simp only [rstep, Option.some.injEq, Prod.mk.injEq] at h; obtain ⟨rfl, rfl, -⟩ := h
    obtain ⟨h1, h2, h3, h4⟩ := hi
    exact ⟨rfl, fun r hr => h4 r _ (h2.get h3) (Finds.mono hr (Nat.le_succ _))⟩
  | walk f hd acc k =>
    obtain ⟨h1, h2, h3, h4, h5⟩ := hi
    simp only [rstep] at h
    split_ifs at h with c
    · simp only [Option.some.injEq, Prod.mk.injEq] at h; obtain ⟨rfl, rfl, -⟩ := h
      refine ⟨rfl, h1, h2, by simp; omega, ?_, fun r hr => h5 r (Finds.mono hr (Nat.le_succ _))⟩
      have ha' : acc ++ [((pool f).arrays.getD hd.arr []).getD acc.length default] = ((pool f).elems hd).take (acc.length + 1) := by
        rw [List.take_add_one, ← h4, h2.get c]
        rfl
      simpa using ha'
    · simp only [Option.some.injEq, Prod.mk.injEq] at h; obtain ⟨rfl, rfl, -⟩ := h
      refine ⟨rfl, fun r hr => h5 r ?_⟩
      have e : (pool f).elems hd = acc := by rw [h4, List.take_of_length_le (by rw [h2.length]; omega)]
      rw [e]
      exact Finds.mono hr (Nat.le_succ _)
  | hold hs k =>
    simp only [rstep, Option.some.injEq, Prod.mk.injEq] at h; obtain ⟨rfl, rfl, -⟩ := h
    exact ⟨restore_same hi.1, fun r hr => hi.2 r (Finds.mono hr (Nat.le_succ _))⟩

theorem run_append (g : Nat → Nat) (s : Sys α β) (a b : List Nat) : run g s (a ++ b) = run g (run g s a) b := List.foldl_append ..

theorem run_snoc (g : Nat → Nat) (s : Sys α β) (a : List Nat) (t : Nat) : run g s (a ++ [t]) = step g (run g s a) t := by rw [run_append]; rfl

/-- The invariant after `n` steps of a schedule in which additions do not overlap. -/
structure AllInv (jobs : List (Nat × α)) (B : Nat → List α) (progs : List (Prog α β)) (P : Nat → Nat → Nat → List α → Prop) (n : Nat) (s : Sys α β) : Prop where
  ok : ∀ f, SliceOK (s.app.pool f)
  same : s.app.threads.map (fun th => (th.field, th.elem)) = jobs
  app : ∀ (t : Nat) th, s.app.threads[t]? = some th → AInv (s.app.pool th.field) th.elem th.pc
  whole : ∀ f, ∃ ts, Outcome jobs f (B f) ts (s.val f) ∧ ∀ t, t ∈ ts ↔ Added s t ∧ ∃ x, jobs[t]? = some (f, x)
  len : s.calls.length = progs.length
  calls : ∀ (i : Nat) pc p0, s.calls[i]? = some pc → progs[i]? = some p0 → OInv (P (jobs.length + i)) p0 n s.app.pool pc

theorem done_iff_step (g : Nat → Nat) (f : Nat) (e : α) (P : Pool α) (pc : PC α) : (pcStep g f e P pc).2.1 = .done ↔ pc = .done ∨ Storing pc := by
  cases pc with
  | load => simp [pcStep, Storing]
  | place s => unfold pcStep; dsimp only; split_ifs <;> simp [Storing]
  | copy s acc => unfold pcStep; dsimp only; split_ifs <;> simp [Storing]
  | store h => simp [pcStep, Storing]
  | done => simp [pcStep]

theorem moves (g : Nat → Nat) (f : Nat) (e : α) (P : Pool α) {pc : PC α} (h : pc ≠ .done) : (pcStep g f e P pc).2.1 ≠ .load := by
  cases pc with
  | load => simp [pcStep]
  | place s => unfold pcStep; dsimp only; split_ifs <;> simp
  | copy s acc => unfold pcStep; dsimp only; split_ifs <;> simp
  | store h => simp [pcStep]
  | done => exact absurd rfl h

theorem mem_of_lookup_fst {hs : List (Nat × RefSlice)} {f : Nat} {h : RefSlice} (e : hs.lookup f = some h) : f ∈ hs.map Prod.fst := by
  induction hs with
  | nil => cases e
  | cons x hs ih =>
    obtain ⟨a, b⟩ := x
    simp only [List.lookup_cons] at e
    by_cases c : f = a
    · subst c; simp
    · rw [beq_false_of_ne c] at e
      exact List.mem_cons_of_mem _ (ih e)

variable {jobs : List (Nat × α)} {B : Nat → List α} {progs : List (Prog α β)}

/-- One step. `ob` and `oa`: nobody overlaps before and after it. -/
theorem allInv_step (g : Nat → Nat) {P : Nat → Nat → Nat → List α → Prop} {n : Nat} {s : Sys α β} (I : AllInv jobs B progs P n s) (t : Nat)
    (hP : ∀ f, P t n f (s.val f)) (ob : ∀ f t u, Replacing s f t → Replacing s f u → t = u)
    (oa : ∀ f u v, Replacing (step g s t) f u → Replacing (step g s t) f v → u = v) : AllInv jobs B progs P (n + 1) (step g s t) := by
  have tl : s.app.threads.length = jobs.length := by simpa using congrArg List.length I.same
  have stay : ∀ (i : Nat) pc p0, s.calls[i]? = some pc → progs[i]? = some p0 → OInv (P (jobs.length + i)) p0 (n + 1) s.app.pool pc :=
    fun i pc p0 h1 h2 => (I.calls i pc p0 h1 h2).keep (fun _ _ a b => ⟨rfl, a, b⟩) (fun _ _ _ _ _ _ => rfl)
  by_cases cr : s.crashed
  · have e : step g s t = s := by unfold step; rw [if_pos cr]
    rw [e]
    exact ⟨I.ok, I.same, I.app, I.whole, I.len, stay⟩
  by_cases c : t < s.app.threads.length
  · have est : step g s t = { s with app := Build.step g s.app t } := by unfold step; rw [if_neg cr, if_pos c]
    rw [est] at oa ⊢
    obtain ⟨th, ht⟩ : ∃ th, s.app.threads[t]? = some th := ⟨_, List.getElem?_eq_getElem c⟩
    obtain ⟨f, e, pc⟩ := th
    obtain ⟨r1, r2, r3⟩ := Build.step_eq g ht
    have ha := I.app t _ ht
    dsimp only at ha
    obtain ⟨a1, a2, a3, a4, a5⟩ := ainv_step g f (I.ok f) ha
    rw [← r2] at a1 a2 a3 a4 a5
    have quiet : pc ≠ .done → ∀ u thu, u ≠ t → s.app.threads[u]? = some thu → thu.field = f → thu.pc = .load ∨ thu.pc = .done := by
      intro hd u thu hu hthu hfu
      by_contra hb
      have bu : Replacing s f u := .inl ⟨thu, hthu, hfu, fun e => hb (.inl e), fun e => hb (.inr e)⟩
      by_cases hl : pc = .load
      · have bu' : Replacing { s with app := Build.step g s.app t } f u := .inl ⟨thu, by dsimp only; rw [r1.threads u hu]; exact hthu, hfu, fun e => hb (.inl e), fun e => hb (.inr e)⟩
        refine hu (oa f u t bu' (.inl ⟨_, r3, rfl, ?_, ?_⟩)) <;> simp [hl, pcStep]
      · exact hu (ob f u t bu (.inl ⟨_, ht, rfl, hl, hd⟩))
    refine ⟨?_, ?_, ?_, ?_, I.len, ?_⟩
    · intro f'
      by_cases hf : f' = f
      · subst hf; exact a2
      · dsimp only; rw [r1.pool f' hf]; exact I.ok f'
    · have : (Build.step g s.app t).threads = s.app.threads.set t ⟨f, e, (pcStep g f e (s.app.pool f) pc).2.1⟩ := by unfold Build.step; rw [ht]
      dsimp only
      rw [this]
      exact same_set ht I.same _
    · intro u thu hu
      dsimp only at hu ⊢
      by_cases hut : u = t
      · subst hut
        rw [r3] at hu; cases hu
        exact a1
      · rw [r1.threads u hut] at hu
        have hi := I.app u thu hu
        by_cases hf : thu.field = f
        · by_cases hd : pc = .done
          · have : (Build.step g s.app t).pool f = s.app.pool f := by rw [r2, hd]; rfl
            rw [hf, this, ← hf]; exact hi
          · rcases quiet hd u thu hut hu hf with e | e <;> (rw [e]; trivial)
        · rw [r1.pool _ hf]; exact hi
    · intro f'
      obtain ⟨ts, ⟨nd, xs, f1, f2⟩, f3⟩ := I.whole f'
      have oth : ∀ u, u ≠ t → (Added { s with app := Build.step g s.app t } u ↔ Added s u) := fun u hu => by unfold Added; dsimp only; rw [r1.threads u hu]
      have own : Added { s with app := Build.step g s.app t } t ↔ Added s t ∨ Storing pc := by
        unfold Added
        dsimp only
        rw [r3, ht]
        constructor
        · rintro ⟨x, k1, k2⟩
          cases k1
          rcases (done_iff_step g f e _ pc).1 k2 with h | h
          · exact .inl ⟨_, rfl, h⟩
          · exact .inr h
        · rintro (⟨x, k1, k2⟩ | h)
          · cases k1
            exact ⟨_, rfl, (done_iff_step g f e _ pc).2 (.inl k2)⟩
          · exact ⟨_, rfl, (done_iff_step g f e _ pc).2 (.inr h)⟩
      have hj : jobs[t]? = some (f, e) := by rw [← I.same, List.getElem?_map, ht]; rfl
      by_cases hf : f' = f
      · subst hf
        by_cases hst : Storing pc
        · have hnd : ¬ Added s t := by
            rintro ⟨x, k1, k2⟩; rw [ht] at k1; cases k1; dsimp only at k2; rw [k2] at hst; exact hst
          have htn : t ∉ ts := fun hm => hnd ((f3 t).1 hm).1
          refine ⟨ts ++ [t], ⟨List.nodup_append.2 ⟨nd, by simp, fun a ha b hb e => ?_⟩, xs ++ [e], List.rel_append f1 (.cons hj .nil), ?_⟩, ?_⟩
          · rw [List.mem_singleton] at hb; exact htn (hb ▸ e ▸ ha)
          · unfold Sys.val
            dsimp only
            rw [a4, if_pos hst, show (s.app.pool f').val = _ from f2, List.append_assoc]
          · intro u
            rw [List.mem_append, f3, List.mem_singleton]
            by_cases hut : u = t
            · subst hut
              exact ⟨fun _ => ⟨own.2 (.inr hst), _, hj⟩, fun _ => .inr rfl⟩
            · simp [hut, oth u hut]
        · refine ⟨ts, ⟨nd, xs, f1, ?_⟩, ?_⟩
          · unfold Sys.val
            dsimp only
            rw [a4, if_neg hst, List.append_nil]; exact f2
          · intro u
            rw [f3]
            by_cases hut : u = t
            · subst hut; simp [own, hst]
            · rw [oth u hut]
      · refine ⟨ts, ⟨nd, xs, f1, ?_⟩, ?_⟩
        · unfold Sys.val
          dsimp only
          rw [r1.pool f' hf]; exact f2
        · intro u
          rw [f3]
          by_cases hut : u = t
          · subst hut
            rw [hj]
            simp [Ne.symm hf]
          · rw [oth u hut]
    · intro i pc' p0 hi hp0
      refine (I.calls i pc' p0 hi hp0).keep ?_ ?_
      · intro f' q h1 h2
        dsimp only
        by_cases hf : f' = f
        · subst hf; exact a3 q h1 h2
        · rw [r1.pool f' hf]; exact ⟨rfl, h1, h2⟩
      · intro hs k epc f' h el
        dsimp only
        by_cases hf : f' = f
        · subst hf
          refine a5 fun hst => ?_
          have b1 : Replacing s f' t := .inl ⟨_, ht, rfl, by rintro h; dsimp only at h; rw [h] at hst; exact hst, by rintro h; dsimp only at h; rw [h] at hst; exact hst⟩
          have b2 : Replacing s f' (s.app.threads.length + i) := .inr ⟨i, hs, k, rfl, epc ▸ hi, mem_of_lookup_fst el⟩
          have := ob f' _ _ b1 b2
          omega
        · rw [r1.pool f' hf]
  · rcases hc : s.calls[t - s.app.threads.length]? with _ | pc
    · have e : step g s t = s := by unfold step; rw [if_neg cr, if_neg c, hc]
      rw [e]
      exact ⟨I.ok, I.same, I.app, I.whole, I.len, stay⟩
    rcases hs : rstep s.app.pool pc with _ | ⟨pool', pc', acc⟩
    · have e : step g s t = { s with crashed := true } := by unfold step; rw [if_neg cr, if_neg c, hc]; dsimp only; rw [hs]
      rw [e]
      exact ⟨I.ok, I.same, I.app, I.whole, I.len, stay⟩
    have est : step g s t = { s with app := { s.app with pool := pool', log := s.app.log ++ acc.map fun a => ⟨t, a.1, a.2⟩ }, calls := s.calls.set (t - s.app.threads.length) pc' } := by
      unfold step; rw [if_neg cr, if_neg c, hc]; dsimp only; rw [hs]
    rw [est]
    have hlt := (List.getElem?_eq_some_iff.1 hc).1
    obtain ⟨p0, hp0⟩ : ∃ p0, progs[t - s.app.threads.length]? = some p0 := ⟨_, List.getElem?_eq_getElem (by rw [← I.len]; exact hlt)⟩
    have hti : jobs.length + (t - s.app.threads.length) = t := by omega
    have hO := I.calls _ pc p0 hc hp0
    rw [hti] at hO
    obtain ⟨rfl, k2⟩ := ostep I.ok hP hs hO
    refine ⟨I.ok, I.same, I.app, I.whole, by simpa using I.len, ?_⟩
    intro i x q hx hq
    dsimp only at hx ⊢
    by_cases e : i = t - s.app.threads.length
    · rw [e, List.getElem?_set_self hlt] at hx
      cases hx
      rw [e, hp0] at hq; cases hq
      rw [e, hti]; exact k2
    · rw [List.getElem?_set_ne (Ne.symm e)] at hx
      exact stay i x q hx hq

theorem allInv_run (g : Nat → Nat) (pool : Nat → Pool α) (ok : ∀ f, SliceOK (pool f)) (jobs : List (Nat × α)) (progs : List (Prog α β)) (sch : List Nat)
    (ho : NoOverlap g (start pool jobs progs) sch) : ∀ n ≤ sch.length, AllInv jobs (fun f => (pool f).val) progs (At g (start pool jobs progs) sch) n (run g (start pool jobs progs) (sch.take n))
  | 0, _ => by
    rw [List.take_zero]
    have I := minv_start pool ok jobs progs
    refine ⟨ok, (I.app 0).same, ?_, fun f => ⟨[], ⟨List.nodup_nil, [], .nil, by rw [List.append_nil]; rfl⟩, ?_⟩, I.len, ?_⟩
    · intro t th h
      simp only [run, start, Build.start, List.foldl_nil, List.getElem?_map, Option.map_eq_some_iff] at h
      obtain ⟨j, -, rfl⟩ := h
      trivial
    · intro t
      simp only [List.not_mem_nil, false_iff]
      rintro ⟨⟨x, h3, h4⟩, -⟩
      simp only [run, start, Build.start, List.foldl_nil, List.getElem?_map, Option.map_eq_some_iff] at h3
      obtain ⟨j, -, rfl⟩ := h3
      cases h4
    · intro i pc p0 h h0
      simp only [run, start, List.foldl_nil, List.getElem?_map, h0, Option.map_some] at h
      cases h
      exact fun r h => h
  | n + 1, hn => by
    have ih := allInv_run g pool ok jobs progs sch ho n (by omega)
    have hlt : n < sch.length := hn
    have et : sch.take (n + 1) = sch.take n ++ [sch[n]] := by rw [List.take_add_one, List.getElem?_eq_getElem hlt]; rfl
    have ob := ho (sch.take n) (sch.drop n) (List.take_append_drop n sch).symm
    have oa := ho (sch.take (n + 1)) (sch.drop (n + 1)) (List.take_append_drop (n + 1) sch).symm
    rw [et, run_snoc] at oa ⊢
    exact allInv_step g ih _ (fun f => ⟨List.getElem?_eq_getElem hlt, rfl⟩) ob oa

end Verif.Mix
