import Verif.Spec.ConcScript
import Verif.Lemmas.Heap
import Mathlib.Tactic.SplitIfs
import Mathlib.Data.List.Forall2
/-! # Invariants of concurrent appends to a script -/
namespace Verif.Torn
open Verif Verif.Spec

/-- Position `p` may show `x`: a byte of `B`, or the byte that a goroutine, which began at `slot`, puts there. -/
def EntOK (ops : List ScriptAppend) (slot : Nat → Option Nat) (B : Bytes) (p : Nat) (x : UInt8) : Prop :=
  if p < B.length then B[p]? = some x else ∃ t d i o, Puts ops t d ∧ d[i]? = some x ∧ slot t = some o ∧ p = o + i

def Shown (ops : List ScriptAppend) (slot : Nat → Option Nat) (B : Bytes) (m : Mem) (a off n : Nat) : Prop :=
  ∀ p < n, ∃ x, (m.bytes a)[off + p]? = some x ∧ EntOK ops slot B p x

/-- A header that refers to the array the script had at the start, or to a new one. -/
def Here (m0 : Mem) (v0 h : Hdr) : Prop := (h.arr = v0.arr ∧ h.off = v0.off ∧ h.cap = v0.cap) ∨ (m0.length ≤ h.arr ∧ h.off = 0)

structure Good (ops : List ScriptAppend) (m0 : Mem) (v0 : Hdr) (slot : Nat → Option Nat) (m : Mem) (h : Hdr) : Prop where
  wf : h.WF m
  here : Here m0 v0 h
  base : (v0.data m0).length ≤ h.len
  ent : Shown ops slot (v0.data m0) m h.arr h.off h.len

def Done (ths : List Thread) (u : Nat) : Prop := ∃ th, ths[u]? = some th ∧ th.pc = .done

/-- `n` is the length of what some calls that have returned append. -/
def Sel (ops : List ScriptAppend) (ths : List Thread) (us : List Nat) (n : Nat) : Prop := Together ops us n ∧ ∀ u ∈ us, Done ths u

def TInv (ops : List ScriptAppend) (m0 : Mem) (v0 : Hdr) (slot : Nat → Option Nat) (m : Mem) (ths : List Thread) (t : Nat) (d : Bytes) : PC → Prop
  | .load => slot t = none
  | .place s => Good ops m0 v0 slot m s ∧ slot t = some s.len ∧ ∃ us n, Sel ops ths us n ∧ s.len = (v0.data m0).length + n
  | .write s i => Good ops m0 v0 slot m s ∧ slot t = some s.len ∧ (∃ us n, Sel ops ths us n ∧ s.len = (v0.data m0).length + n) ∧ s.len + d.length ≤ s.cap ∧ i ≤ d.length ∧
      Shown ops slot (v0.data m0) m s.arr s.off (s.len + i)
  | .copy s acc => Good ops m0 v0 slot m s ∧ slot t = some s.len ∧ (∃ us n, Sel ops ths us n ∧ s.len = (v0.data m0).length + n) ∧ acc.length ≤ s.len ∧
      ∀ p x, acc[p]? = some x → EntOK ops slot (v0.data m0) p x
  | .store h => Good ops m0 v0 slot m h ∧ ∃ us n, Sel ops ths us n ∧ h.len = (v0.data m0).length + d.length + n
  | .done => True

variable {ops : List ScriptAppend} {m0 : Mem} {v0 : Hdr} {slot slot' : Nat → Option Nat} {B : Bytes} {m m' : Mem} {ths ths' : List Thread}

theorem EntOK.mono (h : ∀ t p, slot t = some p → slot' t = some p) {p : Nat} {x : UInt8} (e : EntOK ops slot B p x) : EntOK ops slot' B p x := by
  unfold EntOK at *
  split_ifs at * with c
  · exact e
  · obtain ⟨t, d, i, o, h1, h2, h3, h4⟩ := e
    exact ⟨t, d, i, o, h1, h2, h t o h3, h4⟩

theorem Shown.mono (h : ∀ t p, slot t = some p → slot' t = some p) {a off n : Nat} (s : Shown ops slot B m a off n) : Shown ops slot' B m a off n := fun p hp => by
  obtain ⟨x, h1, h2⟩ := s p hp
  exact ⟨x, h1, h2.mono h⟩

theorem Good.mono (h : ∀ t p, slot t = some p → slot' t = some p) {s : Hdr} (g : Good ops m0 v0 slot m s) : Good ops m0 v0 slot' m s := ⟨g.wf, g.here, g.base, g.ent.mono h⟩

theorem here_off (w0 : v0.WF m0) {h k : Hdr} (hh : Here m0 v0 h) (hk : Here m0 v0 k) (e : h.arr = k.arr) : h.off = k.off := by
  have := w0.arr
  rcases hh with ⟨a, b, -⟩ | ⟨a, b⟩ <;> rcases hk with ⟨c, d, -⟩ | ⟨c, d⟩ <;> omega

/-- Writing one byte. -/
theorem get_write1 {a pos : Nat} {x : UInt8} (ha : a < m.length) (hp : pos < (m.bytes a).length) (a' q : Nat) :
    ((m.write a pos [x]).bytes a')[q]? = if a' = a ∧ q = pos then some x else (m.bytes a')[q]? := by
  by_cases e : a' = a
  · subst e
    rw [Mem.bytes_write_eq ha]
    have : (m.bytes a').take pos ++ [x] ++ (m.bytes a').drop (pos + [x].length) = (m.bytes a').set pos x := by
      rw [List.set_eq_take_append_cons_drop, if_pos hp]; simp
    rw [this, List.getElem?_set]
    by_cases c : pos = q
    · rw [if_pos c, if_pos hp, if_pos ⟨rfl, c.symm⟩]
    · rw [if_neg c, if_neg (fun k => c k.2.symm)]
  · rw [Mem.bytes_write_ne e, if_neg (fun c => e c.1)]

theorem len_write1 {a pos : Nat} {x : UInt8} (ha : a < m.length) (hp : pos < (m.bytes a).length) (a' : Nat) : ((m.write a pos [x]).bytes a').length = (m.bytes a').length :=
  Mem.length_bytes_write hp ha

theorem Shown.write {a a' off off' p0 n : Nat} {x : UInt8} (ha : a < m.length) (hp : off + p0 < (m.bytes a).length) (ho : a' = a → off' = off) (e : EntOK ops slot B p0 x)
    (s : Shown ops slot B m a' off' n) : Shown ops slot B (m.write a (off + p0) [x]) a' off' n := fun p hpn => by
  rw [get_write1 ha hp]
  split_ifs with c
  · have := ho c.1
    have : p = p0 := by omega
    exact ⟨x, rfl, this ▸ e⟩
  · exact s p hpn

theorem wf_write1 {a pos : Nat} {x : UInt8} (ha : a < m.length) (hp : pos < (m.bytes a).length) {h : Hdr} (w : h.WF m) : h.WF (m.write a pos [x]) :=
  w.mono (Nat.le_of_eq (Mem.length_write ..).symm) (len_write1 ha hp _)

theorem Shown.alloc {a off n : Nat} (ha : a < m.length) (b : Bytes) (s : Shown ops slot B m a off n) : Shown ops slot B (m.alloc b) a off n := fun p hp => by
  rw [Mem.bytes_alloc_lt ha]; exact s p hp

theorem Good.alloc (b : Bytes) {h : Hdr} (g : Good ops m0 v0 slot m h) : Good ops m0 v0 slot (m.alloc b) h :=
  ⟨g.wf.mono (by rw [Mem.length_alloc]; exact Nat.le_succ _) (by rw [Mem.bytes_alloc_lt g.wf.arr]), g.here, g.base, g.ent.alloc g.wf.arr b⟩

theorem Good.write (w0 : v0.WF m0) {s h : Hdr} {p0 : Nat} {x : UInt8} (gs : Good ops m0 v0 slot m s) (hp : s.off + p0 < (m.bytes s.arr).length)
    (e : EntOK ops slot (v0.data m0) p0 x) (g : Good ops m0 v0 slot m h) : Good ops m0 v0 slot (m.write s.arr (s.off + p0) [x]) h :=
  ⟨wf_write1 gs.wf.arr hp g.wf, g.here, g.base, g.ent.write gs.wf.arr hp (here_off w0 g.here gs.here) e⟩

theorem onlySpare_write (w0 : v0.WF m0) (k : OnlySpare m0 v0 m) {s : Hdr} {i n : Nat} {x : UInt8} (gs : Good ops m0 v0 slot m s) (hn : s.len + n ≤ s.cap) (hi : i < n) :
    OnlySpare m0 v0 (m.write s.arr (s.off + (s.len + i)) [x]) := by
  have hp : s.off + (s.len + i) < (m.bytes s.arr).length := by have := gs.wf.cap; omega
  refine ⟨by rw [Mem.length_write]; exact k.1, fun a ha => ⟨by rw [len_write1 gs.wf.arr hp]; exact (k.2 a ha).1, fun p hne => ?_⟩⟩
  rw [get_write1 gs.wf.arr hp]
  split_ifs with c
  · exfalso
    apply hne
    have hb := gs.base
    rw [w0.len_data] at hb
    rcases gs.here with ⟨h1, h2, h3⟩ | ⟨h1, -⟩
    · exact ⟨c.1.trans h1, by omega, by omega⟩
    · omega
  · exact (k.2 a ha).2 p hne

theorem onlySpare_alloc (k : OnlySpare m0 v0 m) (b : Bytes) : OnlySpare m0 v0 (m.alloc b) := by
  refine ⟨by rw [Mem.length_alloc]; have := k.1; omega, fun a ha => ?_⟩
  rw [Mem.bytes_alloc_lt (Nat.lt_of_lt_of_le ha k.1)]
  exact k.2 a ha

/-- What one step keeps for the other goroutines. -/
structure Keeps (ops : List ScriptAppend) (m0 : Mem) (v0 : Hdr) (slot slot' : Nat → Option Nat) (m m' : Mem) (ths ths' : List Thread) : Prop where
  grows : ∀ t p, slot t = some p → slot' t = some p
  good : ∀ h, Good ops m0 v0 slot m h → Good ops m0 v0 slot' m' h
  shown : ∀ h n, Good ops m0 v0 slot m h → Shown ops slot (v0.data m0) m h.arr h.off n → Shown ops slot' (v0.data m0) m' h.arr h.off n
  done : ∀ u, Done ths u → Done ths' u

theorem Sel.keep (d : ∀ u, Done ths u → Done ths' u) {us : List Nat} {n : Nat} (s : Sel ops ths us n) : Sel ops ths' us n := ⟨s.1, fun u hu => d u (s.2 u hu)⟩

theorem TInv.keep (k : Keeps ops m0 v0 slot slot' m m' ths ths') {t : Nat} {d : Bytes} (hs : slot' t = slot t) {pc : PC} (i : TInv ops m0 v0 slot m ths t d pc) :
    TInv ops m0 v0 slot' m' ths' t d pc := by
  have sel : ∀ {l : Nat}, (∃ us n, Sel ops ths us n ∧ l = (v0.data m0).length + n) → ∃ us n, Sel ops ths' us n ∧ l = (v0.data m0).length + n :=
    fun ⟨us, n, h1, h2⟩ => ⟨us, n, h1.keep k.done, h2⟩
  cases pc with
  | load => exact hs.trans i
  | place s => exact ⟨k.good _ i.1, hs.trans i.2.1, sel i.2.2⟩
  | write s j => exact ⟨k.good _ i.1, hs.trans i.2.1, sel i.2.2.1, i.2.2.2.1, i.2.2.2.2.1, k.shown _ _ i.1 i.2.2.2.2.2⟩
  | copy s acc => exact ⟨k.good _ i.1, hs.trans i.2.1, sel i.2.2.1, i.2.2.2.1, fun p x hx => (i.2.2.2.2 p x hx).mono k.grows⟩
  | store h =>
    obtain ⟨h1, us, n, h2, h3⟩ := i
    exact ⟨k.good _ h1, us, n, h2.keep k.done, h3⟩
  | done => trivial

/-- The invariant. -/
structure Inv (ops : List ScriptAppend) (m0 : Mem) (v0 : Hdr) (slot : Nat → Option Nat) (s : Sys) : Prop where
  same : s.threads.map (fun th => (th.data, th.grow)) = ops.map fun op => ((thread op).data, (thread op).grow)
  err : ∀ t op, ops[t]? = some op → (∀ d, op.bytes ≠ .ok d) → Done s.threads t
  mem : OnlySpare m0 v0 s.mem
  hdr : Good ops m0 v0 slot s.mem s.hdr
  sel : ∃ us n, Sel ops s.threads us n ∧ s.hdr.len = (v0.data m0).length + n ∧ ((∃ t d, Puts ops t d ∧ Done s.threads t) → us ≠ [])
  slots : ∀ t o, slot t = some o → ∃ us n, Together ops us n ∧ t ∉ us ∧ o = (v0.data m0).length + n
  thr : ∀ t th, s.threads[t]? = some th → TInv ops m0 v0 slot s.mem s.threads t th.data th.pc

/-- The goroutine of a call that has not returned has the bytes of the call. -/
theorem Inv.writes {s : Sys} (I : Inv ops m0 v0 slot s) {t : Nat} {th : Thread} (h : s.threads[t]? = some th) (hd : th.pc ≠ .done) : Puts ops t th.data := by
  have h1 := congrArg (fun l => l[t]?) I.same
  simp only [List.getElem?_map, h, Option.map_some] at h1
  rcases ho : ops[t]? with _ | op
  · rw [ho] at h1; cases h1
  · rw [ho] at h1
    refine ⟨op, ho, ?_⟩
    by_cases hk : ∃ d, op.bytes = .ok d
    · obtain ⟨d, hk⟩ := hk
      have h2 := Option.some.inj h1
      simp only [thread, hk, Prod.mk.injEq] at h2
      rw [h2.1]; exact hk
    · obtain ⟨th', k1, k2⟩ := I.err t op ho (fun d hd => hk ⟨d, hd⟩)
      rw [h] at k1; cases k1
      exact absurd k2 hd

theorem writes_fun {t : Nat} {d d' : Bytes} (h : Puts ops t d) (k : Puts ops t d') : d = d' := by
  obtain ⟨o, h1, h2⟩ := h
  obtain ⟨o', k1, k2⟩ := k
  rw [h1] at k1; cases k1
  rw [h2] at k2; cases k2; rfl

theorem together_cons {us : List Nat} {n t : Nat} {d : Bytes} (h : Together ops us n) (ht : t ∉ us) (w : Puts ops t d) : Together ops (t :: us) (d.length + n) := by
  obtain ⟨nd, ds, h1, rfl⟩ := h
  exact ⟨List.nodup_cons.2 ⟨ht, nd⟩, d :: ds, .cons w h1, by simp⟩

theorem together_nil : Together ops [] 0 := ⟨List.nodup_nil, [], .nil, rfl⟩

/-- What a step of goroutine `t` gives, for the proof of `inv_step`. -/
structure Stepped (ops : List ScriptAppend) (m0 : Mem) (v0 : Hdr) (slot slot' : Nat → Option Nat) (s : Sys) (t : Nat) (d : Bytes) (m' : Mem) (v' : Hdr) (pc' : PC) (ths' : List Thread) : Prop where
  keeps : Keeps ops m0 v0 slot slot' s.mem m' s.threads ths'
  others : ∀ u, u ≠ t → slot' u = slot u
  mem : OnlySpare m0 v0 m'
  hdr : Good ops m0 v0 slot' m' v'
  sel : ∃ us n, Sel ops ths' us n ∧ v'.len = (v0.data m0).length + n ∧ ((∃ t d, Puts ops t d ∧ Done ths' t) → us ≠ [])
  slots : ∀ t o, slot' t = some o → ∃ us n, Together ops us n ∧ t ∉ us ∧ o = (v0.data m0).length + n
  own : TInv ops m0 v0 slot' m' ths' t d pc'

theorem done_set {t : Nat} {th : Thread} {pc' : PC} (ht : ths[t]? = some th) (h : pc' ≠ .done) (hn : th.pc ≠ .done) (u : Nat) :
    Done (ths.set t { th with pc := pc' }) u ↔ Done ths u := by
  by_cases c : u = t
  · subst c
    unfold Done
    rw [List.getElem?_set_self (List.getElem?_eq_some_iff.1 ht).1, ht]
    constructor
    · rintro ⟨x, h1, h2⟩; cases h1; exact absurd h2 h
    · rintro ⟨x, h1, h2⟩; cases h1; exact absurd h2 hn
  · unfold Done
    rw [List.getElem?_set_ne (Ne.symm c)]

/-- A step that leaves the variable alone and does not return. -/
theorem stepped_quiet {s : Sys} (I : Inv ops m0 v0 slot s) {t : Nat} {th : Thread} (ht : s.threads[t]? = some th) (hn : th.pc ≠ .done) {m' : Mem} {pc' : PC} (hn' : pc' ≠ .done)
    (good : ∀ h, Good ops m0 v0 slot s.mem h → Good ops m0 v0 slot m' h)
    (shown : ∀ h n, Good ops m0 v0 slot s.mem h → Shown ops slot (v0.data m0) s.mem h.arr h.off n → Shown ops slot (v0.data m0) m' h.arr h.off n)
    (mem : OnlySpare m0 v0 m') (own : TInv ops m0 v0 slot m' s.threads t th.data pc') :
    Stepped ops m0 v0 slot slot s t th.data m' s.hdr pc' (s.threads.set t { th with pc := pc' }) := by
  have hd := done_set (pc' := pc') ht hn' hn
  obtain ⟨us, n, h1, h2, h3⟩ := I.sel
  refine ⟨⟨fun _ _ h => h, good, shown, fun u h => (hd u).2 h⟩, fun _ _ => rfl, mem, good _ I.hdr, ?_, I.slots, ?_⟩
  · exact ⟨us, n, h1.keep fun u h => (hd u).2 h, h2, fun ⟨t, d, w, dn⟩ => h3 ⟨t, d, w, (hd t).1 dn⟩⟩
  · exact own.keep ⟨fun _ _ h => h, fun _ h => h, fun _ _ _ h => h, fun u h => (hd u).2 h⟩ rfl

theorem inv_stepped (w0 : v0.WF m0) {s : Sys} (I : Inv ops m0 v0 slot s) {t : Nat} {th : Thread} (ht : s.threads[t]? = some th) :
    ∃ slot', Stepped ops m0 v0 slot slot' s t th.data (pcStep th.data th.grow s.mem s.hdr th.pc).1 (pcStep th.data th.grow s.mem s.hdr th.pc).2.1
      (pcStep th.data th.grow s.mem s.hdr th.pc).2.2.1 (s.threads.set t { th with pc := (pcStep th.data th.grow s.mem s.hdr th.pc).2.2.1 }) := by
  obtain ⟨d, g, pc⟩ := th
  have hi := I.thr t _ ht
  dsimp only at hi
  have hw : pc ≠ .done → Puts ops t d := fun h => I.writes ht h
  have ndone : pc ≠ .done → ¬ Done s.threads t := by
    rintro h ⟨x, h1, h2⟩; rw [ht] at h1; cases h1; exact h h2
  have ent : ∀ {q i : Nat}, (v0.data m0).length ≤ q → slot t = some q → i < d.length → pc ≠ .done → EntOK ops slot (v0.data m0) (q + i) (d.getD i 0) := by
    intro q i hq hs hi hpc
    unfold EntOK
    rw [if_neg (by omega)]
    exact ⟨t, d, i, q, hw hpc, by rw [List.getD_eq_getElem?_getD, List.getElem?_eq_getElem hi]; rfl, hs, rfl⟩
  cases pc with
  | load =>
    have hs : slot t = none := hi
    have sub : ∀ u p, slot u = some p → (fun u => if u = t then some s.hdr.len else slot u) u = some p := by
      intro u p hu
      dsimp only
      split_ifs with c
      · subst c; rw [hs] at hu; cases hu
      · exact hu
    have hd := done_set (pc' := .place s.hdr) ht (by simp) (by simp)
    obtain ⟨us, n, h1, h2, h3⟩ := I.sel
    refine ⟨fun u => if u = t then some s.hdr.len else slot u, ?_⟩
    simp only [pcStep]
    refine ⟨⟨sub, fun h k => k.mono sub, fun h n _ k => k.mono sub, fun u h => (hd u).2 h⟩, fun u hu => if_neg hu, I.mem, I.hdr.mono sub, ?_, ?_, ?_⟩
    · exact ⟨us, n, h1.keep fun u h => (hd u).2 h, h2, fun ⟨t, d, w, dn⟩ => h3 ⟨t, d, w, (hd t).1 dn⟩⟩
    · intro u o hu
      split_ifs at hu with c
      · subst c
        cases hu
        exact ⟨us, n, h1.1, fun hm => ndone (by simp) (h1.2 _ hm), h2⟩
      · exact I.slots u o hu
    · exact ⟨I.hdr.mono sub, if_pos rfl, us, n, h1.keep fun u h => (hd u).2 h, h2⟩
  | place s' =>
    obtain ⟨hg, hs, hsel⟩ := hi
    refine ⟨slot, ?_⟩
    simp only [pcStep]
    split_ifs with c
    · exact stepped_quiet I ht (by simp) (by simp) (fun _ h => h) (fun _ _ _ h => h) I.mem ⟨hg, hs, hsel, c, Nat.zero_le _, hg.ent⟩
    · exact stepped_quiet I ht (by simp) (by simp) (fun _ h => h) (fun _ _ _ h => h) I.mem ⟨hg, hs, hsel, Nat.zero_le _, fun p x hx => by simp at hx⟩
  | write s' i =>
    obtain ⟨hg, hs, hsel, hc, hil, hsh⟩ := hi
    refine ⟨slot, ?_⟩
    simp only [pcStep]
    split_ifs with c
    · have hp : s'.off + (s'.len + i) < (s.mem.bytes s'.arr).length := by have := hg.wf.cap; omega
      have he := ent (i := i) hg.base hs c (by simp)
      rw [Nat.add_assoc]
      refine stepped_quiet I ht (by simp) (by simp) (fun h k => hg.write w0 hp he k) (fun h n k kk => kk.write hg.wf.arr hp (here_off w0 k.here hg.here) he)
        (onlySpare_write w0 I.mem hg hc c) ⟨hg.write w0 hp he hg, hs, hsel, hc, c, ?_⟩
      intro p hpl
      by_cases hpe : p = s'.len + i
      · subst hpe
        exact ⟨d.getD i 0, by rw [get_write1 hg.wf.arr hp, if_pos ⟨rfl, rfl⟩], he⟩
      · exact hsh.write hg.wf.arr hp (fun _ => rfl) he p (by omega)
    · obtain rfl : i = d.length := by omega
      obtain ⟨us, n, h1, h2⟩ := hsel
      refine stepped_quiet I ht (by simp) (by simp) (fun _ h => h) (fun _ _ _ h => h) I.mem ⟨⟨⟨hg.wf.arr, hc, hg.wf.cap⟩, hg.here, ?_, hsh⟩, us, n, h1, ?_⟩
      · have := hg.base; dsimp only; omega
      · dsimp only; omega
  | copy s' acc =>
    obtain ⟨hg, hs, hsel, hal, hsh⟩ := hi
    refine ⟨slot, ?_⟩
    simp only [pcStep]
    split_ifs with c
    · obtain ⟨x, hx, he⟩ := hg.ent acc.length c
      have e : (s.mem.bytes s'.arr).getD (s'.off + acc.length) 0 = x := by rw [List.getD_eq_getElem?_getD, hx]; rfl
      rw [e]
      refine stepped_quiet I ht (by simp) (by simp) (fun _ h => h) (fun _ _ _ h => h) I.mem ⟨hg, hs, hsel, by simp; omega, ?_⟩
      intro p y hy
      rcases Nat.lt_trichotomy p acc.length with h | h | h
      · rw [List.getElem?_append_left h] at hy; exact hsh p y hy
      · subst h; simp at hy; exact hy ▸ he
      · rw [List.getElem?_eq_none (by simp; omega)] at hy; cases hy
    · have hal : acc.length = s'.len := by omega
      obtain ⟨us, n, h1, h2⟩ := hsel
      refine stepped_quiet I ht (by simp) (by simp) (fun h k => k.alloc _) (fun h n k kk => kk.alloc k.wf.arr _) (onlySpare_alloc I.mem _) ⟨⟨Mem.fresh_wf _ _ _, .inr ⟨I.mem.1, rfl⟩, ?_, ?_⟩, us, n, h1, ?_⟩
      · have := hg.base; simp only [Mem.fresh, List.length_append]; omega
      · intro p hp
        simp only [Mem.fresh, List.length_append] at hp ⊢
        rw [Mem.bytes_alloc_new, Nat.zero_add, List.getElem?_append_left (by simp; omega)]
        refine ⟨(acc ++ d)[p]'(by simp; omega), List.getElem?_eq_getElem _, ?_⟩
        by_cases hpa : p < acc.length
        · rw [List.getElem_append_left hpa]; exact hsh p _ (List.getElem?_eq_getElem hpa)
        · rw [List.getElem_append_right (by omega)]
          have := ent (i := p - acc.length) hg.base hs (by omega) (by simp)
          rw [← hal, Nat.add_sub_cancel' (by omega)] at this
          rw [List.getD_eq_getElem?_getD, List.getElem?_eq_getElem (by omega)] at this
          exact this
      · simp only [Mem.fresh, List.length_append]; omega
  | store h =>
    obtain ⟨hg, us, n, h1, h2⟩ := hi
    have hd : ∀ u, Done s.threads u → Done (s.threads.set t ⟨d, g, .done⟩) u := by
      intro u hu
      by_cases c : u = t
      · subst c; exact ⟨_, List.getElem?_set_self (List.getElem?_eq_some_iff.1 ht).1, rfl⟩
      · obtain ⟨x, k1, k2⟩ := hu
        exact ⟨x, by rw [List.getElem?_set_ne (Ne.symm c)]; exact k1, k2⟩
    refine ⟨slot, ?_⟩
    simp only [pcStep]
    refine ⟨⟨fun _ _ h => h, fun _ h => h, fun _ _ _ h => h, hd⟩, fun _ _ => rfl, I.mem, hg, ?_, I.slots, trivial⟩
    refine ⟨t :: us, d.length + n, ⟨together_cons h1.1 (fun hm => ndone (by simp) (h1.2 t hm)) (hw (by simp)), ?_⟩, by omega, fun _ => by simp⟩
    intro u hu
    rcases List.mem_cons.1 hu with rfl | hu
    · exact ⟨_, List.getElem?_set_self (List.getElem?_eq_some_iff.1 ht).1, rfl⟩
    · exact hd u (h1.2 u hu)
  | done =>
    refine ⟨slot, ?_⟩
    simp only [pcStep]
    have e : s.threads.set t ⟨d, g, .done⟩ = s.threads := by
      apply List.ext_getElem?
      intro u
      rw [List.getElem?_set]
      split_ifs with c1 c2
      · subst c1; exact ht.symm
      · subst c1; rw [List.getElem?_eq_none (by omega)]
      · rfl
    rw [e]
    exact ⟨⟨fun _ _ h => h, fun _ h => h, fun _ _ _ h => h, fun _ h => h⟩, fun _ _ => rfl, I.mem, I.hdr, I.sel, I.slots, trivial⟩

theorem inv_step_keeps (w0 : v0.WF m0) {s : Sys} (I : Inv ops m0 v0 slot s) (t : Nat) :
    ∃ slot', Inv ops m0 v0 slot' (step s t) ∧ Keeps ops m0 v0 slot slot' s.mem (step s t).mem s.threads (step s t).threads := by
  unfold step
  rcases ht : s.threads[t]? with _ | th
  · exact ⟨slot, I, ⟨fun _ _ h => h, fun _ h => h, fun _ _ _ h => h, fun _ h => h⟩⟩
  obtain ⟨slot', S⟩ := inv_stepped w0 I ht
  refine ⟨slot', ⟨?_, ?_, S.mem, S.hdr, S.sel, S.slots, ?_⟩, S.keeps⟩
  · dsimp only
    rw [List.map_set, ← I.same]
    apply List.ext_getElem?
    intro u
    rw [List.getElem?_set]
    split_ifs with c1 c2
    · subst c1; rw [List.getElem?_map, ht]; rfl
    · subst c1; rw [List.getElem?_eq_none (by omega)]
    · rfl
  · exact fun u op h1 h2 => S.keeps.done u (I.err u op h1 h2)
  · intro u thu hu
    dsimp only at hu ⊢
    by_cases c : u = t
    · subst c
      rw [List.getElem?_set_self (List.getElem?_eq_some_iff.1 ht).1] at hu
      cases hu
      exact S.own
    · rw [List.getElem?_set_ne (Ne.symm c)] at hu
      exact (I.thr u thu hu).keep S.keeps (S.others u c)

theorem inv_step (w0 : v0.WF m0) {s : Sys} (I : Inv ops m0 v0 slot s) (t : Nat) : ∃ slot', Inv ops m0 v0 slot' (step s t) := by
  obtain ⟨slot', h, -⟩ := inv_step_keeps w0 I t
  exact ⟨slot', h⟩

theorem inv_run (w0 : v0.WF m0) : ∀ (sch : List Nat) {s : Sys} {slot : Nat → Option Nat}, Inv ops m0 v0 slot s → ∃ slot', Inv ops m0 v0 slot' (run s sch)
  | [], _, slot, h => ⟨slot, h⟩
  | t :: sch, _, _, h => by
    obtain ⟨slot', h'⟩ := inv_step w0 h t
    exact inv_run w0 sch h'

theorem data_get {h : Hdr} (m : Mem) (p : Nat) (hp : p < h.len) : (h.data m)[p]? = (m.bytes h.arr)[h.off + p]? := by
  unfold Hdr.data Hdr.view
  rw [List.getElem?_take, if_pos hp, List.getElem?_drop]

theorem inv_start (w0 : v0.WF m0) (ops : List ScriptAppend) : Inv ops m0 v0 (fun _ => none) (start m0 v0 ops) where
  same := by simp [start, Function.comp_def]
  err := by
    intro t op ho hb
    refine ⟨thread op, by simp [start, ho], ?_⟩
    unfold thread
    split
    · next d h => exact absurd h (hb d)
    · rfl
  mem := ⟨Nat.le_refl _, fun a _ => ⟨rfl, fun p _ => rfl⟩⟩
  hdr := by
    refine ⟨w0, .inl ⟨rfl, rfl, rfl⟩, Nat.le_of_eq w0.len_data, ?_⟩
    intro p hp
    have hl := w0.len_data
    change p < v0.len at hp
    refine ⟨(v0.data m0)[p]'(by omega), ?_, ?_⟩
    · show (m0.bytes v0.arr)[v0.off + p]? = _
      rw [← data_get m0 p hp]; exact List.getElem?_eq_getElem _
    · unfold EntOK; rw [if_pos (by omega)]; exact List.getElem?_eq_getElem _
  sel := by
    refine ⟨[], 0, ⟨together_nil, by simp⟩, w0.len_data.symm, ?_⟩
    rintro ⟨t, d, ⟨op, h1, h2⟩, x, h3, h4⟩
    simp only [start, List.getElem?_map, h1, Option.map_some] at h3
    cases h3
    simp [thread, h2] at h4
  slots := by intro t o h; cases h
  thr := by
    intro t th ht
    simp only [start, List.getElem?_map, Option.map_eq_some_iff] at ht
    obtain ⟨op, -, rfl⟩ := ht
    unfold thread
    split
    · rfl
    · trivial

end Verif.Torn
