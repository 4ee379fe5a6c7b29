import Verif.Props.ConcScript
import Verif.Props.Tx
import Verif.Spec.ConcScriptRead
/-!
# C119: reading a script while others append to it
-/
namespace Verif.Props
open Verif Verif.Spec Verif.Torn

variable {ops : List ScriptAppend} {m : Mem} {v : Hdr}

theorem rsys_run_append (s : RSys) (a b : List Nat) : s.run (a ++ b) = (s.run a).run b := List.foldl_append ..

theorem rsys_run_snoc (s : RSys) (a : List Nat) (t : Nat) : s.run (a ++ [t]) = (s.run a).step t := by rw [rsys_run_append]; rfl

theorem threads_length_step (s : Sys) (t : Nat) : (Torn.step s t).threads.length = s.threads.length := by
  unfold Torn.step
  split <;> simp

theorem Inv.log {slot : Nat → Option Nat} {s : Sys} (I : Inv ops m v slot s) (l : List Build.Access) : Inv ops m v slot { s with log := l } := ⟨I.same, I.err, I.mem, I.hdr, I.sel, I.slots, I.thr⟩

theorem Inv.threads_length {slot : Nat → Option Nat} {s : Sys} (I : Inv ops m v slot s) : s.threads.length = ops.length := by
  simpa using congrArg List.length I.same

/-! ## Every schedule -/

/-- What a reader can hold at any moment. -/
def RInv (ops : List ScriptAppend) (m0 : Mem) (v0 : Hdr) (slot : Nat → Option Nat) (m : Mem) : RPC → Prop
  | .load => True
  | .reload n => ∃ us k, Together ops us k ∧ n = (v0.data m0).length + k
  | .read n h acc => (∃ us k, Together ops us k ∧ n = (v0.data m0).length + k) ∧ Good ops m0 v0 slot m h ∧ (∃ us k, Together ops us k ∧ h.len = (v0.data m0).length + k) ∧ acc.length ≤ h.len ∧
      ∀ p x, acc[p]? = some x → EntOK ops slot (v0.data m0) p x
  | .done n b => (∃ us k, Together ops us k ∧ n = (v0.data m0).length + k) ∧ (∃ us k, Together ops us k ∧ b.length = (v0.data m0).length + k) ∧ ∀ p x, b[p]? = some x → EntOK ops slot (v0.data m0) p x

theorem RInv.keep {slot slot' : Nat → Option Nat} {m1 m2 : Mem} {ths ths' : List Thread} (k : Keeps ops m v slot slot' m1 m2 ths ths') {pc : RPC} (h : RInv ops m v slot m1 pc) : RInv ops m v slot' m2 pc := by
  cases pc with
  | load => trivial
  | reload n => exact h
  | read n hd acc => exact ⟨h.1, k.good _ h.2.1, h.2.2.1, h.2.2.2.1, fun p x hx => (h.2.2.2.2 p x hx).mono k.grows⟩
  | done n b => exact ⟨h.1, h.2.1, fun p x hx => (h.2.2 p x hx).mono k.grows⟩

theorem rinv_step {slot : Nat → Option Nat} {s : Sys} (I : Inv ops m v slot s) (tw : Bool) {pc : RPC} (h : RInv ops m v slot s.mem pc) : RInv ops m v slot s.mem (readStep tw s.mem s.hdr pc).1 := by
  obtain ⟨us, n, h1, h2, -⟩ := I.sel
  cases pc with
  | load =>
    cases tw
    · exact ⟨⟨us, n, h1.1, h2⟩, I.hdr, ⟨us, n, h1.1, h2⟩, Nat.zero_le _, fun p x hx => by simp at hx⟩
    · exact ⟨us, n, h1.1, h2⟩
  | reload k => exact ⟨h, I.hdr, ⟨us, n, h1.1, h2⟩, Nat.zero_le _, fun p x hx => by simp at hx⟩
  | read k hd acc =>
    obtain ⟨hk, hg, hs, hl, he⟩ := h
    simp only [readStep]
    split_ifs with c
    · obtain ⟨x, hx, hent⟩ := hg.ent acc.length c
      have e : (s.mem.bytes hd.arr).getD (hd.off + acc.length) 0 = x := by rw [List.getD_eq_getElem?_getD, hx]; rfl
      rw [e]
      refine ⟨hk, hg, hs, by simp; omega, ?_⟩
      intro p y hy
      rcases Nat.lt_trichotomy p acc.length with h | h | h
      · rw [List.getElem?_append_left h] at hy; exact he p y hy
      · subst h; simp at hy; exact hy ▸ hent
      · rw [List.getElem?_eq_none (by simp; omega)] at hy; cases hy
    · have : acc.length = hd.len := by omega
      exact ⟨hk, by rw [this]; exact hs, he⟩
  | done n b => exact h

theorem rinv_run (w : v.WF m) (readers : List Bool) (sch : List Nat) : ∃ slot, Inv ops m v slot ((startR m v ops readers).run sch).app ∧
    ∀ rd ∈ ((startR m v ops readers).run sch).readers, RInv ops m v slot ((startR m v ops readers).run sch).app.mem rd.pc := by
  induction sch using List.reverseRecOn with
  | nil =>
    refine ⟨_, inv_start w ops, ?_⟩
    intro rd h
    simp only [RSys.run, startR, List.foldl_nil, List.mem_map] at h
    obtain ⟨tw, -, rfl⟩ := h
    trivial
  | append_singleton sch t ih =>
    obtain ⟨slot, I, hr⟩ := ih
    rw [rsys_run_snoc]
    generalize (startR m v ops readers).run sch = s at I hr
    unfold RSys.step
    split_ifs with c
    · obtain ⟨slot', I', k⟩ := inv_step_keeps w I t
      exact ⟨slot', I', fun rd h => (hr rd h).keep k⟩
    · split
      · exact ⟨slot, I, hr⟩
      · next rd hrd =>
        refine ⟨slot, Inv.log I _, ?_⟩
        intro x hx
        rcases List.mem_or_eq_of_mem_set hx with hx | rfl
        · exact hr x hx
        · exact rinv_step I rd.twice (hr rd (List.mem_of_getElem? hrd))

/-- C119, any schedule: what a call reads is the script as it was at the start and behind it as many bytes as some of the appends add in all, each being the byte that one of them puts at its place. -/
theorem C119_any (w : v.WF m) (ops : List ScriptAppend) (readers : List Bool) (sch : List Nat) (tw : Bool) (n : Nat) (b : Bytes)
    (h : (⟨tw, .done n b⟩ : Reader) ∈ ((startR m v ops readers).run sch).readers) : ∃ ts off, Mixture ops (v.data m) ts off b := by
  obtain ⟨slot, I, hr⟩ := rinv_run (ops := ops) w readers sch
  obtain ⟨-, ⟨us, k, h1, h2⟩, h3⟩ := hr _ h
  exact ⟨us, _, entries_mixture I.slots h3 h1 h2⟩

/-! ## Appends that do not overlap -/

/-- `b` is `a` or a later header of the same variable. -/
def Ext (a b : Hdr) : Prop := a.arr ≤ b.arr ∧ (a.arr = b.arr → a.off = b.off ∧ a.len ≤ b.len)

theorem Ext.refl (a : Hdr) : Ext a a := ⟨Nat.le_refl _, fun _ => ⟨rfl, Nat.le_refl _⟩⟩

theorem Ext.trans {a b c : Hdr} (h : Ext a b) (k : Ext b c) : Ext a c :=
  ⟨Nat.le_trans h.1 k.1, fun e => by
    have e1 : a.arr = b.arr := Nat.le_antisymm h.1 (e ▸ k.1)
    have e2 : b.arr = c.arr := e1 ▸ e
    exact ⟨(h.2 e1).1.trans (k.2 e2).1, Nat.le_trans (h.2 e1).2 (k.2 e2).2⟩⟩

theorem data_alloc {h : Hdr} {m : Mem} (w : h.WF m) (b : Bytes) : h.data (m.alloc b) = h.data m := Hdr.data_congr (Mem.bytes_alloc_lt w.arr)

theorem data_write_behind {h k : Hdr} {m : Mem} (wh : h.WF m) (wk : k.WF m) (e : Ext h k) {i : Nat} (hi : k.len + i < k.cap) (x : UInt8) :
    h.data (m.write k.arr (k.off + k.len + i) [x]) = h.data m := by
  have hp : k.off + k.len + i < (m.bytes k.arr).length := by have := wk.cap; omega
  have wh' := wf_write1 (x := x) wk.arr hp wh
  apply List.ext_getElem?
  intro p
  by_cases c : p < h.len
  · rw [data_get _ p c, data_get _ p c, get_write1 wk.arr hp, if_neg]
    rintro ⟨e1, e2⟩
    have := e.2 e1
    omega
  · rw [List.getElem?_eq_none (by rw [wh'.len_data]; omega), List.getElem?_eq_none (by rw [wh.len_data]; omega)]

/-- An append that no other overlaps. -/
def AInv (m : Mem) (v : Hdr) (d : Bytes) : PC → Prop
  | .place s => s = v
  | .write s i => s = v ∧ v.len + d.length ≤ v.cap ∧ i ≤ d.length ∧ ∀ j < i, (m.bytes v.arr)[v.off + v.len + j]? = d[j]?
  | .copy s acc => s = v ∧ acc.length ≤ v.len ∧ acc = (v.data m).take acc.length
  | .store h => Ext v h ∧ h.WF m ∧ h.data m = v.data m ++ d
  | _ => True

open Classical in
theorem ainv_step {d : Bytes} {k : Nat} {m : Mem} {v : Hdr} (w : v.WF m) {pc : PC} (h : AInv m v d pc) :
    AInv (pcStep d k m v pc).1 (pcStep d k m v pc).2.1 d (pcStep d k m v pc).2.2.1 ∧
    (∀ q, Ext q v → q.WF m → q.data (pcStep d k m v pc).1 = q.data m ∧ Ext q (pcStep d k m v pc).2.1 ∧ q.WF (pcStep d k m v pc).1) ∧
    ((pcStep d k m v pc).2.1.data (pcStep d k m v pc).1 = v.data m ++ (if ∃ h, pc = .store h then d else [])) := by
  have same : ∀ q, Ext q v → q.WF m → q.data m = q.data m ∧ Ext q v ∧ q.WF m := fun q h1 h2 => ⟨rfl, h1, h2⟩
  cases pc with
  | load => exact ⟨rfl, same, by simp [pcStep]⟩
  | place s =>
    obtain rfl : s = v := h
    simp only [pcStep]
    split_ifs with c1 c2 c2
    · simp at c2
    · exact ⟨⟨rfl, c1, Nat.zero_le _, fun j hj => absurd hj (Nat.not_lt_zero _)⟩, same, by simp⟩
    · simp at c2
    · exact ⟨⟨rfl, Nat.zero_le _, by simp⟩, same, by simp⟩
  | write s i =>
    obtain ⟨rfl, hc, hi, hj⟩ := h
    have ns : ¬ ∃ h, PC.write s i = .store h := by simp
    rw [if_neg ns]
    simp only [pcStep]
    split_ifs with c1
    · have hp : s.off + s.len + i < (m.bytes s.arr).length := by have := w.cap; omega
      refine ⟨⟨rfl, hc, c1, ?_⟩, ?_, ?_⟩
      · intro j hji
        dsimp only
        rw [get_write1 w.arr hp]
        by_cases e : j = i
        · subst e
          rw [if_pos ⟨rfl, rfl⟩, List.getD_eq_getElem?_getD, List.getElem?_eq_getElem c1]; rfl
        · rw [if_neg (by rintro ⟨-, h⟩; omega)]; exact hj j (by omega)
      · intro q e wq
        exact ⟨data_write_behind wq w e (by omega) _, e, wf_write1 w.arr hp wq⟩
      · rw [data_write_behind w w (Ext.refl _) (by omega)]; simp
    · obtain rfl : i = d.length := by omega
      have wf' : Hdr.WF m { s with len := s.len + d.length } := ⟨w.arr, hc, w.cap⟩
      refine ⟨⟨⟨Nat.le_refl _, fun _ => ⟨rfl, Nat.le_add_right _ _⟩⟩, wf', ?_⟩, same, by simp⟩
      have hl := w.len_data
      show Hdr.data m { s with len := s.len + d.length } = Hdr.data m s ++ d
      apply List.ext_getElem?
      intro p
      by_cases c2 : p < s.len
      · rw [data_get _ p (by dsimp only; omega), List.getElem?_append_left (by omega), data_get _ p c2]
      · rw [List.getElem?_append_right (by omega), hl]
        by_cases c3 : p < s.len + d.length
        · rw [data_get _ p c3, ← hj (p - s.len) (by omega)]
          congr 1
          dsimp only
          omega
        · rw [List.getElem?_eq_none (by rw [wf'.len_data]; dsimp only; omega), List.getElem?_eq_none (by omega)]
  | copy s acc =>
    obtain ⟨rfl, hl, ha⟩ := h
    have ns : ¬ ∃ h, PC.copy s acc = .store h := by simp
    have hdl := w.len_data
    rw [if_neg ns]
    simp only [pcStep]
    split_ifs with c1
    · refine ⟨⟨rfl, by simp; omega, ?_⟩, same, by simp⟩
      have ha' : acc ++ [(m.bytes s.arr).getD (s.off + acc.length) 0] = (s.data m).take (acc.length + 1) := by
        rw [List.take_add_one, ← ha, List.getD_eq_getElem?_getD, ← data_get m acc.length c1, List.getElem?_eq_getElem (by omega)]
        rfl
      simpa using ha'
    · have e : s.data m = acc := by rw [ha, List.take_of_length_le (by omega)]
      refine ⟨⟨⟨Nat.le_of_lt w.arr, fun c => absurd c (Nat.ne_of_lt w.arr)⟩, Mem.fresh_wf _ _ _, ?_⟩, ?_, ?_⟩
      · rw [Mem.fresh_data]
        show acc ++ d = s.data (m.alloc _) ++ d
        rw [data_alloc w, e]
      · intro q e wq
        exact ⟨data_alloc wq _, e, wq.mono (by simp [Mem.fresh, Mem.alloc]) (by show ((m.alloc _).bytes _).length = _; rw [Mem.bytes_alloc_lt wq.arr])⟩
      · show s.data (m.alloc _) = _
        rw [data_alloc w]; simp
  | store h' =>
    obtain ⟨h1, h2, h3⟩ := h
    refine ⟨trivial, fun q e wq => ⟨rfl, e.trans h1, wq⟩, ?_⟩
    rw [if_pos ⟨h', rfl⟩]
    exact h3
  | done => exact ⟨trivial, same, by simp [pcStep]⟩

/-- What reader number `t` (among all goroutines) has seen in the course of the schedule: the length of the script when it made its first step; and the bytes of the script at that moment, or, when it evaluates the
variable twice, when it made its second step. -/
def Seen (s0 : RSys) (sch : List Nat) (t : Nat) (tw : Bool) (n : Nat) (b : Bytes) : Prop :=
  ∃ p q, sch = p ++ t :: q ∧ t ∉ p ∧ n = (s0.run p).script.length ∧
    if tw then ∃ q1 q2, q = q1 ++ t :: q2 ∧ t ∉ q1 ∧ b = (s0.run (p ++ t :: q1)).script else b = (s0.run p).script

theorem Seen.snoc {s0 : RSys} {sch : List Nat} {t : Nat} {tw : Bool} {n : Nat} {b : Bytes} (h : Seen s0 sch t tw n b) (u : Nat) : Seen s0 (sch ++ [u]) t tw n b := by
  obtain ⟨p, q, rfl, hp, hn, hb⟩ := h
  refine ⟨p, q ++ [u], by simp, hp, hn, ?_⟩
  cases tw
  · exact hb
  · obtain ⟨q1, q2, rfl, h1, h2⟩ := hb
    exact ⟨q1, q2 ++ [u], by simp, h1, h2⟩

/-- What a reader holds when the appends do not overlap. -/
def OInv (s0 : RSys) (sch : List Nat) (t : Nat) (m : Mem) (v : Hdr) (rd : Reader) : Prop :=
  match rd.pc with
  | .load => t ∉ sch
  | .reload n => rd.twice = true ∧ ∃ p q, sch = p ++ t :: q ∧ t ∉ p ∧ t ∉ q ∧ n = (s0.run p).script.length
  | .read n h acc => Ext h v ∧ h.WF m ∧ acc.length ≤ h.len ∧ acc = (h.data m).take acc.length ∧ Seen s0 sch t rd.twice n (h.data m)
  | .done n b => Seen s0 sch t rd.twice n b

theorem returned_iff (s : Sys) (t : Nat) : Returned s t ↔ Done s.threads t := Iff.rfl

structure AllInv (ops : List ScriptAppend) (m0 : Mem) (v0 : Hdr) (s0 : RSys) (sch : List Nat) (s : RSys) : Prop where
  wf : s.app.hdr.WF s.app.mem
  len : s.app.threads.length = ops.length
  writes : ∀ t th, s.app.threads[t]? = some th → th.pc ≠ .done → Puts ops t th.data
  app : ∀ (t : Nat) th, s.app.threads[t]? = some th → AInv s.app.mem s.app.hdr th.data th.pc
  whole : ∃ ts, Whole ops (v0.data m0) ts s.script ∧ ∀ t, t ∈ ts ↔ (Returned s.app t ∧ ∃ d, Puts ops t d)
  readers : ∀ i rd, s.readers[i]? = some rd → OInv s0 sch (ops.length + i) s.app.mem s.app.hdr rd

theorem allInv_run (w : v.WF m) (readers : List Bool) (sch : List Nat) (ho : Orderly (startR m v ops readers) sch) :
    AllInv ops m v (startR m v ops readers) sch ((startR m v ops readers).run sch) := by
  induction sch using List.reverseRecOn with
  | nil =>
    obtain ⟨slot, I, -⟩ := rinv_run (ops := ops) w readers []
    refine ⟨I.hdr.wf, Inv.threads_length I, fun t th h1 h2 => I.writes h1 h2, ?_, ⟨[], ⟨List.nodup_nil, [], .nil, by simp [RSys.run, startR, RSys.script, Sys.script, start]⟩, ?_⟩, ?_⟩
    · intro t th h
      simp only [RSys.run, startR, start, List.foldl_nil, List.getElem?_map, Option.map_eq_some_iff] at h
      obtain ⟨op, -, rfl⟩ := h
      unfold thread
      split <;> trivial
    · intro t
      simp only [List.not_mem_nil, false_iff]
      rintro ⟨⟨x, h3, h4⟩, d, op, h1, h2⟩
      simp only [RSys.run, startR, start, List.foldl_nil, List.getElem?_map, h1, Option.map_some] at h3
      cases h3
      simp [thread, h2] at h4
    · intro i rd h
      simp only [RSys.run, startR, List.foldl_nil, List.getElem?_map, Option.map_eq_some_iff] at h
      obtain ⟨tw, -, rfl⟩ := h
      show _ ∉ []
      simp
  | append_singleton sch t ih =>
    have ih := ih (fun p q e => ho p (q ++ [t]) (by rw [e, List.append_assoc]))
    obtain ⟨slot, I, -⟩ := rinv_run (ops := ops) w readers sch
    obtain ⟨slot', I', -⟩ := rinv_run (ops := ops) w readers (sch ++ [t])
    have ob := ho sch [t] rfl
    have oa := ho (sch ++ [t]) [] (by simp)
    rw [rsys_run_snoc] at I' oa ⊢
    have es : (startR m v ops readers).run sch = (startR m v ops readers).run sch := rfl
    generalize hs : (startR m v ops readers).run sch = s at *
    generalize hs0 : startR m v ops readers = s0 at *
    by_cases c : t < s.app.threads.length
    · -- an appending goroutine
      have est : s.step t = { s with app := Torn.step s.app t } := by unfold RSys.step; rw [if_pos c]
      rw [est] at I' oa ⊢
      obtain ⟨th, ht⟩ : ∃ th, s.app.threads[t]? = some th := ⟨_, List.getElem?_eq_getElem c⟩
      obtain ⟨e1, e2, e3⟩ := torn_step_eq ht
      obtain ⟨a1, a2, a3⟩ := ainv_step (k := th.grow) ih.wf (ih.app t th ht)
      rw [← e1, ← e2] at a1 a2 a3
      have own : (Torn.step s.app t).threads[t]? = some { th with pc := (pcStep th.data th.grow s.app.mem s.app.hdr th.pc).2.2.1 } := by
        rw [e3, List.getElem?_set_self c]
      have oth : ∀ u, u ≠ t → (Torn.step s.app t).threads[u]? = s.app.threads[u]? := fun u hu => by rw [e3, List.getElem?_set_ne (Ne.symm hu)]
      -- the others are not in the middle of a call
      have quiet : (pcStep th.data th.grow s.app.mem s.app.hdr th.pc).2.2.1 ≠ th.pc → ∀ u thu, u ≠ t → s.app.threads[u]? = some thu → thu.pc = .load ∨ thu.pc = .done := by
        intro hne u thu hu hthu
        by_contra hb
        have bu : Busy s.app u := ⟨thu, hthu, fun e => hb (.inl e), fun e => hb (.inr e)⟩
        have bu' : Busy (Torn.step s.app t) u := ⟨thu, by rw [oth u hu]; exact hthu, fun e => hb (.inl e), fun e => hb (.inr e)⟩
        by_cases hp : th.pc = .load
        · refine hu (oa u t bu' ⟨_, own, ?_, ?_⟩) <;> simp [hp, pcStep]
        · by_cases hq : th.pc = .done
          · apply hne; rw [hq]; rfl
          · exact hu (ob u t bu ⟨th, ht, hp, hq⟩)
      refine ⟨I'.hdr.wf, Inv.threads_length I', fun u x h1 h2 => I'.writes h1 h2, ?_, ?_, ?_⟩
      · intro u thu hu
        by_cases hut : u = t
        · subst hut
          rw [own] at hu; cases hu
          exact a1
        · rw [oth u hut] at hu
          by_cases hd : th.pc = .done
          · have := ih.app u thu hu
            show AInv (Torn.step s.app t).mem (Torn.step s.app t).hdr thu.data thu.pc
            rw [e1, e2, hd]
            exact this
          · have hne : (pcStep th.data th.grow s.app.mem s.app.hdr th.pc).2.2.1 ≠ th.pc := by
              generalize th.pc = pc at hd
              intro e
              cases pc with
              | load => simp [pcStep] at e
              | place s' => simp only [pcStep] at e; split_ifs at e
              | write s' i => simp only [pcStep] at e; (split_ifs at e; simp at e)
              | copy s' acc => simp only [pcStep] at e; (split_ifs at e; simp at e)
              | store h => simp [pcStep] at e
              | done => exact hd rfl
            rcases quiet hne u thu hut hu with e | e <;> (show AInv _ _ _ thu.pc; rw [e]; trivial)
      · obtain ⟨ts, ⟨nd, ds, f1, f2⟩, f3⟩ := ih.whole
        by_cases hst : ∃ h, th.pc = .store h
        · obtain ⟨h, hst⟩ := hst
          have hnd : ¬ Returned s.app t := by
            rintro ⟨x, k1, k2⟩; rw [ht] at k1; cases k1; rw [hst] at k2; cases k2
          have hput := ih.writes t th ht (by rw [hst]; simp)
          have htn : t ∉ ts := fun hm => hnd ((f3 t).1 hm).1
          refine ⟨ts ++ [t], ⟨List.nodup_append.2 ⟨nd, by simp, fun a ha b hb e => ?_⟩, ds ++ [th.data], List.rel_append f1 (.cons hput .nil), ?_⟩, ?_⟩
          · rw [List.mem_singleton] at hb; exact htn (hb ▸ e ▸ ha)
          · show (Torn.step s.app t).hdr.data (Torn.step s.app t).mem = _
            rw [a3, if_pos ⟨h, hst⟩, show s.app.hdr.data s.app.mem = _ from f2]
            simp
          · intro u
            rw [List.mem_append, f3, List.mem_singleton]
            by_cases hut : u = t
            · subst hut
              refine ⟨fun _ => ⟨⟨_, own, by rw [hst]; rfl⟩, _, hput⟩, fun _ => .inr rfl⟩
            · have : Returned (Torn.step s.app t) u ↔ Returned s.app u := by unfold Returned; rw [oth u hut]
              simp [hut, this]
        · refine ⟨ts, ⟨nd, ds, f1, ?_⟩, ?_⟩
          · show (Torn.step s.app t).hdr.data (Torn.step s.app t).mem = _
            rw [a3, if_neg hst, List.append_nil]
            exact f2
          · intro u
            rw [f3]
            by_cases hut : u = t
            · subst hut
              have : Returned (Torn.step s.app u) u ↔ Returned s.app u := by
                unfold Returned
                rw [own, ht]
                constructor
                · rintro ⟨x, k1, k2⟩
                  cases k1
                  dsimp only at k2
                  refine ⟨th, rfl, ?_⟩
                  generalize th.pc = pc at hst k2
                  cases pc with
                  | load => simp [pcStep] at k2
                  | place s' => simp only [pcStep] at k2; split_ifs at k2
                  | write s' i => simp only [pcStep] at k2; split_ifs at k2
                  | copy s' acc => simp only [pcStep] at k2; split_ifs at k2
                  | store h => exact absurd ⟨h, rfl⟩ hst
                  | done => rfl
                · rintro ⟨x, k1, k2⟩
                  cases k1
                  exact ⟨_, rfl, by rw [k2]; rfl⟩
              rw [this]
            · have : Returned (Torn.step s.app t) u ↔ Returned s.app u := by unfold Returned; rw [oth u hut]
              rw [this]
      · intro i rd hrd
        have hi := ih.readers i rd hrd
        have hti : ops.length + i ≠ t := by have := ih.len; omega
        unfold OInv at hi ⊢
        rcases hpc : rd.pc with _ | n | ⟨n, h, acc⟩ | ⟨n, b⟩
        · rw [hpc] at hi
          exact fun hm => by
            rcases List.mem_append.1 hm with hm | hm
            · exact hi hm
            · exact hti (List.mem_singleton.1 hm)
        · rw [hpc] at hi
          obtain ⟨k0, p, q, k1, k2, k3, k4⟩ := hi
          refine ⟨k0, p, q ++ [t], by rw [k1]; simp, k2, ?_, k4⟩
          intro hm
          rcases List.mem_append.1 hm with hm | hm
          · exact k3 hm
          · exact hti (List.mem_singleton.1 hm)
        · rw [hpc] at hi
          obtain ⟨k1, k2, k3, k4, k5⟩ := hi
          obtain ⟨b1, b2, b3⟩ := a2 h k1 k2
          dsimp only
          refine ⟨b2, b3, k3, by rw [b1]; exact k4, by rw [b1]; exact k5.snoc t⟩
        · rw [hpc] at hi
          exact Seen.snoc hi t
    · -- a reading goroutine, or nobody
      have est : s.step t = match s.readers[t - s.app.threads.length]? with
          | none => s
          | some rd =>
            let r := readStep rd.twice s.app.mem s.app.hdr rd.pc
            { app := { s.app with log := s.app.log ++ r.2.map fun a => ⟨t, a.1, a.2⟩ }, readers := s.readers.set (t - s.app.threads.length) { rd with pc := r.1 } } := by
        unfold RSys.step; rw [if_neg c]; rfl
      have others : ∀ (i : Nat) (rd : Reader), ops.length + i ≠ t → OInv s0 sch (ops.length + i) s.app.mem s.app.hdr rd → OInv s0 (sch ++ [t]) (ops.length + i) s.app.mem s.app.hdr rd := by
        intro i rd hti hi
        unfold OInv at hi ⊢
        rcases hpc : rd.pc with _ | n | ⟨n, h, acc⟩ | ⟨n, b⟩
        · rw [hpc] at hi
          exact fun hm => by
            rcases List.mem_append.1 hm with hm | hm
            · exact hi hm
            · exact hti (List.mem_singleton.1 hm)
        · rw [hpc] at hi
          obtain ⟨k0, p, q, k1, k2, k3, k4⟩ := hi
          refine ⟨k0, p, q ++ [t], by rw [k1]; simp, k2, ?_, k4⟩
          intro hm
          rcases List.mem_append.1 hm with hm | hm
          · exact k3 hm
          · exact hti (List.mem_singleton.1 hm)
        · rw [hpc] at hi
          obtain ⟨k1, k2, k3, k4, k5⟩ := hi
          exact ⟨k1, k2, k3, k4, k5.snoc t⟩
        · rw [hpc] at hi
          exact Seen.snoc hi t
      have hlen := ih.len
      rcases hrd : s.readers[t - s.app.threads.length]? with _ | rd
      · rw [hrd] at est
        rw [est]
        refine ⟨ih.wf, ih.len, ih.writes, ih.app, ih.whole, fun i rd h => others i rd (fun e => ?_) (ih.readers i rd h)⟩
        rw [← e, hlen, Nat.add_sub_cancel_left, h] at hrd
        cases hrd
      · rw [hrd] at est
        dsimp only at est
        rw [est]
        refine ⟨ih.wf, ih.len, ih.writes, ih.app, ih.whole, ?_⟩
        intro i x hx
        dsimp only at hx ⊢
        by_cases hi : i = t - s.app.threads.length
        · have hlt := (List.getElem?_eq_some_iff.1 hrd).1
          rw [← hi] at hx hlt hrd
          rw [List.getElem?_set_self hlt] at hx
          cases hx
          have hti : ops.length + i = t := by omega
          have h0 := ih.readers i rd hrd
          rw [hti] at h0 ⊢
          have hsc : s.script = s.app.hdr.data s.app.mem := rfl
          unfold OInv at h0 ⊢
          dsimp only
          rcases hpc : rd.pc with _ | n | ⟨n, h, acc⟩ | ⟨n, b⟩
          · rw [hpc] at h0
            dsimp only at h0
            rcases htw : rd.twice with _ | _
            · simp only [readStep, Bool.false_eq_true, if_false]
              refine ⟨Ext.refl _, ih.wf, Nat.zero_le _, by simp, sch, [], rfl, h0, ?_, ?_⟩
              · rw [hs, hsc, ih.wf.len_data]
              · rw [if_neg (by simp), hs, hsc]
            · simp only [readStep, if_true]
              refine ⟨trivial, sch, [], rfl, h0, by simp, ?_⟩
              rw [hs, hsc, ih.wf.len_data]
          · rw [hpc] at h0
            dsimp only at h0
            obtain ⟨k0, p, q, k1, k2, k3, k4⟩ := h0
            simp only [readStep]
            refine ⟨Ext.refl _, ih.wf, Nat.zero_le _, by simp, p, q ++ [t], by rw [k1]; simp, k2, k4, ?_⟩
            rw [if_pos k0]
            exact ⟨q, [], rfl, k3, by rw [← k1, hs, hsc]⟩
          · rw [hpc] at h0
            dsimp only at h0
            obtain ⟨k1, k2, k3, k4, k5⟩ := h0
            have hdl := k2.len_data
            simp only [readStep]
            split_ifs with c1
            · refine ⟨k1, k2, by simp; omega, ?_, k5.snoc t⟩
              have ha' : acc ++ [(s.app.mem.bytes h.arr).getD (h.off + acc.length) 0] = (h.data s.app.mem).take (acc.length + 1) := by
                rw [List.take_add_one, ← k4, List.getD_eq_getElem?_getD, ← data_get s.app.mem acc.length c1, List.getElem?_eq_getElem (by omega)]
                rfl
              simpa using ha'
            · have e : h.data s.app.mem = acc := by rw [k4, List.take_of_length_le (by omega)]
              rw [e] at k5
              exact k5.snoc t
          · rw [hpc] at h0
            exact Seen.snoc h0 t
        · rw [List.getElem?_set_ne (Ne.symm hi)] at hx
          exact others i x (by omega) (ih.readers i x hx)


/-- C119: when the appends do not overlap, a call that evaluates the variable once reads a snapshot: the script of the moment at which it made its first step. That is the base and then, whole and one after the
other, what the calls that had returned by then appended, and nothing of the one that was under way. -/
theorem C119_orderly (m : Mem) (v : Hdr) (w : v.WF m) (ops : List ScriptAppend) (readers : List Bool) (sch : List Nat) (ho : Orderly (startR m v ops readers) sch) (i n : Nat) (b : Bytes)
    (h : ((startR m v ops readers).run sch).readers[i]? = some ⟨false, .done n b⟩) :
    ∃ p q, sch = p ++ (ops.length + i) :: q ∧ ops.length + i ∉ p ∧ b = ((startR m v ops readers).run p).script ∧ n = b.length ∧
      ∃ ts, Whole ops (v.data m) ts b ∧ ∀ t, t ∈ ts ↔ Returned ((startR m v ops readers).run p).app t ∧ ∃ d, Puts ops t d := by
  have h1 : Seen (startR m v ops readers) sch (ops.length + i) false n b := (allInv_run (ops := ops) w readers sch ho).readers i _ h
  obtain ⟨p, q, e, h2, h3, h4⟩ := h1
  rw [if_neg (by simp)] at h4
  subst e
  obtain ⟨ts, h5, h6⟩ := (allInv_run (ops := ops) w readers p (fun p' q' e => ho p' (q' ++ (ops.length + i) :: q) (by rw [e, List.append_assoc]))).whole
  exact ⟨p, q, rfl, h2, h4, by rw [h3, h4], ts, h4 ▸ h5, h6⟩

/-- C119: when the appends do not overlap, the script is at every moment the base and then, whole and one after the other, what the successful calls that have returned appended; and when all have returned, what
all of them appended. -/
theorem C119_whole (m : Mem) (v : Hdr) (w : v.WF m) (ops : List ScriptAppend) (readers : List Bool) (sch : List Nat) (ho : Orderly (startR m v ops readers) sch) :
    ∃ ts, Whole ops (v.data m) ts ((startR m v ops readers).run sch).script ∧ (∀ t, t ∈ ts ↔ Returned ((startR m v ops readers).run sch).app t ∧ ∃ d, Puts ops t d) ∧
      (((startR m v ops readers).run sch).app.finished → ∀ t d, Puts ops t d → t ∈ ts) := by
  have I := allInv_run (ops := ops) w readers sch ho
  obtain ⟨ts, h5, h6⟩ := I.whole
  refine ⟨ts, h5, h6, fun hf t d ht => (h6 t).2 ⟨?_, d, ht⟩⟩
  obtain ⟨op, h1, -⟩ := ht
  have hlen : t < ((startR m v ops readers).run sch).app.threads.length := by rw [I.len]; exact (List.getElem?_eq_some_iff.1 h1).1
  exact ⟨_, List.getElem?_eq_getElem hlen, hf _ (List.getElem_mem hlen)⟩

theorem script_step {s0 : RSys} {sch : List Nat} {s : RSys} (I : AllInv ops m v s0 sch s) (t : Nat) : s.script <+: (s.step t).script := by
  by_cases c : t < s.app.threads.length
  · have est : s.step t = { s with app := Torn.step s.app t } := by unfold RSys.step; rw [if_pos c]
    obtain ⟨th, ht⟩ : ∃ th, s.app.threads[t]? = some th := ⟨_, List.getElem?_eq_getElem c⟩
    obtain ⟨e1, e2, -⟩ := torn_step_eq ht
    obtain ⟨-, -, a3⟩ := ainv_step (k := th.grow) I.wf (I.app t th ht)
    rw [← e1, ← e2] at a3
    rw [est]
    exact ⟨_, a3.symm⟩
  · have e : (s.step t).script = s.script := by
      unfold RSys.step
      rw [if_neg c]
      split <;> rfl
    rw [e]
    exact List.prefix_rfl

/-- C119: when the appends do not overlap, what the script was at one moment is the beginning of what it is at every later one. -/
theorem C119_grows (m : Mem) (v : Hdr) (w : v.WF m) (ops : List ScriptAppend) (readers : List Bool) (p q : List Nat) (ho : Orderly (startR m v ops readers) (p ++ q)) :
    ((startR m v ops readers).run p).script <+: ((startR m v ops readers).run (p ++ q)).script := by
  induction q using List.reverseRecOn with
  | nil => simp
  | append_singleton q t ih =>
    have ho' : Orderly (startR m v ops readers) (p ++ q) := fun p' q' e => ho p' (q' ++ [t]) (by rw [← List.append_assoc, e, List.append_assoc])
    refine (ih ho').trans ?_
    rw [← List.append_assoc, rsys_run_snoc]
    exact script_step (allInv_run (ops := ops) w readers (p ++ q) ho') t

/-- C119, `Output.ToBytes` and `GetBytesForSigHash`, which evaluate the variable twice: when the appends do not overlap, the length is that of the script at the first step of the call, and the bytes are those of the
script at its second step. The result is the serialisation of the output with the earlier script, and behind it stray bytes: what was appended in between. -/
theorem C119_output (m : Mem) (v : Hdr) (w : v.WF m) (ops : List ScriptAppend) (readers : List Bool) (sch : List Nat) (ho : Orderly (startR m v ops readers) sch) (i n : Nat) (b : Bytes)
    (h : ((startR m v ops readers).run sch).readers[i]? = some ⟨true, .done n b⟩) :
    ∃ p q r, sch = p ++ (ops.length + i) :: (q ++ (ops.length + i) :: r) ∧ ops.length + i ∉ p ∧ ops.length + i ∉ q ∧
      ∃ old stray, old = ((startR m v ops readers).run p).script ∧ n = old.length ∧ b = ((startR m v ops readers).run (p ++ (ops.length + i) :: q)).script ∧ b = old ++ stray ∧
        ∀ sats, outputRead sats n b = Output.ToBytes ⟨sats, old⟩ ++ stray := by
  have h1 : Seen (startR m v ops readers) sch (ops.length + i) true n b := (allInv_run (ops := ops) w readers sch ho).readers i _ h
  obtain ⟨p, q', e, h2, h3, h4⟩ := h1
  rw [if_pos rfl] at h4
  obtain ⟨q, r, e', h5, h6⟩ := h4
  subst e'
  subst e
  obtain ⟨stray, hs⟩ := C119_grows m v w ops readers p ((ops.length + i) :: q) (fun p' q' e => ho p' (q' ++ (ops.length + i) :: r) (by rw [← List.append_assoc, ← e]; simp))
  rw [← h6] at hs
  refine ⟨p, q, r, rfl, h2, h5, _, stray, rfl, h3, h6, hs.symm, fun sats => ?_⟩
  rw [← hs, h3]
  simp only [outputRead, Output.ToBytes, List.append_assoc]

/-- C119: what `Output.ToBytes` returns is the serialisation of some output exactly when the two evaluations found scripts of the same length. -/
theorem C119_output_serial (sats : UInt64) (n : Nat) (b : Bytes) (hn : n < 2 ^ 64) (hb : b.length < 2 ^ 64) : (∃ o : Output, outputRead sats n b = o.ToBytes) ↔ n = b.length := by
  constructor
  · rintro ⟨o, e⟩
    unfold outputRead Output.ToBytes at e
    rw [List.append_assoc, List.append_assoc] at e
    obtain ⟨e1, e2⟩ := VarInt_prefix_free (List.append_inj e (by simp)).2
    have := congrArg UInt64.toNat e1
    rw [UInt64.toNat_ofNat', UInt64.toNat_ofNat', ← e2, Nat.mod_eq_of_lt hn, Nat.mod_eq_of_lt hb] at this
    exact this
  · rintro rfl
    exact ⟨⟨sats, b⟩, rfl⟩

/-- C119: and a program that parses what `Output.ToBytes` returned finds the earlier script, and takes the stray bytes for whatever comes next. -/
theorem C119_output_parsed (m : Mem) (v : Hdr) (w : v.WF m) (ops : List ScriptAppend) (readers : List Bool) (sch : List Nat) (ho : Orderly (startR m v ops readers) sch) (i n : Nat) (b : Bytes)
    (h : ((startR m v ops readers).run sch).readers[i]? = some ⟨true, .done n b⟩) (sats : UInt64) (rest sp : Bytes) (hcap : (outputRead sats n b ++ rest).length + sp.length < 2 ^ 62) :
    ∃ p q old, sch = p ++ (ops.length + i) :: q ∧ ops.length + i ∉ p ∧ old = ((startR m v ops readers).run p).script ∧
      Output.NewFromBytes ⟨outputRead sats n b ++ rest, sp⟩ = .ok (⟨sats, old⟩, ((Output.ToBytes ⟨sats, old⟩).length : Int)) := by
  obtain ⟨p, q, r, h1, h2, -, old, stray, h3, -, -, -, h4⟩ := C119_output m v w ops readers sch ho i n b h
  refine ⟨p, _, old, h1, h2, h3, ?_⟩
  rw [h4 sats, List.append_assoc] at hcap ⊢
  exact C37_output_codec ⟨sats, old⟩ (stray ++ rest) sp hcap

theorem pkhRead_growing {r0 r1 r2 r3 : Bytes} (h1 : r0 <+: r1) (h2 : r1 <+: r2) (h3 : r2 <+: r3) : ∃ r ∈ [r0, r1, r2, r3], pkhRead r0 r1 r2 r3 = GetPublicKeyHash (some r) := by
  rcases r0 with _ | ⟨a, r0⟩
  · exact ⟨[], by simp, rfl⟩
  obtain ⟨t1, rfl⟩ := h1
  obtain ⟨t2, rfl⟩ := h2
  by_cases ha : a = 0x76
  · rcases hr : r0 ++ t1 ++ t2 with _ | ⟨b, u⟩
    · refine ⟨a :: r0 ++ t1 ++ t2, by simp, ?_⟩
      have e : a :: r0 ++ t1 ++ t2 = [a] := by rw [List.cons_append, List.cons_append, hr]
      rw [e]
      subst ha
      simp [pkhRead, GetPublicKeyHash, index]
    · obtain ⟨t3, rfl⟩ := h3
      refine ⟨a :: r0 ++ t1 ++ t2 ++ t3, by simp, ?_⟩
      have e : a :: r0 ++ t1 ++ t2 = a :: b :: u := by rw [List.cons_append, List.cons_append, hr]
      rw [e]
      subst ha
      simp [pkhRead, GetPublicKeyHash, index]
  · refine ⟨a :: r0, by simp, ?_⟩
    simp [pkhRead, GetPublicKeyHash, index, ha]

/-- C119, `GetPublicKeyHash`, which evaluates the variable up to four times: when the appends do not overlap, it returns what it returns for the script of one of those four moments. -/
theorem C119_pkh (m : Mem) (v : Hdr) (w : v.WF m) (ops : List ScriptAppend) (readers : List Bool) (p0 p1 p2 p3 : List Nat) (ho : Orderly (startR m v ops readers) (p0 ++ p1 ++ p2 ++ p3)) :
    let r := fun p => ((startR m v ops readers).run p).script
    ∃ p ∈ [p0, p0 ++ p1, p0 ++ p1 ++ p2, p0 ++ p1 ++ p2 ++ p3], pkhRead (r p0) (r (p0 ++ p1)) (r (p0 ++ p1 ++ p2)) (r (p0 ++ p1 ++ p2 ++ p3)) = GetPublicKeyHash (some (r p)) := by
  intro r
  have ho' : ∀ a b, p0 ++ p1 ++ p2 ++ p3 = a ++ b → Orderly (startR m v ops readers) a := fun a b e p' q' e' => ho p' (q' ++ b) (by rw [e, e', List.append_assoc])
  have h3 : r (p0 ++ p1 ++ p2) <+: r (p0 ++ p1 ++ p2 ++ p3) := C119_grows m v w ops readers _ _ ho
  have h2 : r (p0 ++ p1) <+: r (p0 ++ p1 ++ p2) := C119_grows m v w ops readers _ _ (ho' _ p3 rfl)
  have h1 : r p0 <+: r (p0 ++ p1) := C119_grows m v w ops readers _ _ (ho' _ (p2 ++ p3) (by simp))
  obtain ⟨x, hx, e⟩ := pkhRead_growing h1 h2 h3
  simp only [List.mem_cons, List.not_mem_nil, or_false] at hx
  rcases hx with rfl | rfl | rfl | rfl
  · exact ⟨p0, by simp, e⟩
  · exact ⟨p0 ++ p1, by simp, e⟩
  · exact ⟨p0 ++ p1 ++ p2, by simp, e⟩
  · exact ⟨p0 ++ p1 ++ p2 ++ p3, by simp, e⟩

/-! ## Every reading call returns -/

/-- The steps a reading call still needs, when no header is longer than `M`. -/
def readLeft (M : Nat) : RPC → Nat
  | .load => M + 3
  | .reload _ => M + 2
  | .read _ h acc => h.len - acc.length + 1
  | .done _ _ => 0

theorem readLeft_step (tw : Bool) (m : Mem) (v : Hdr) (M : Nat) (hM : v.len ≤ M) (pc : RPC) : readLeft M (readStep tw m v pc).1 ≤ readLeft M pc - 1 := by
  cases pc with
  | load => cases tw <;> simp [readStep, readLeft]; omega
  | reload n => simp [readStep, readLeft]; omega
  | read n h acc => simp only [readStep]; split_ifs <;> simp [readLeft]; omega
  | done n b => simp [readStep, readLeft]

theorem reader_other (s : RSys) (t i : Nat) (h : t ≠ s.app.threads.length + i) : (s.step t).readers[i]? = s.readers[i]? := by
  unfold RSys.step
  split_ifs with c
  · rfl
  · split
    · rfl
    · rw [List.getElem?_set_ne (by omega)]

theorem reader_own (s : RSys) (i : Nat) (rd : Reader) (h : s.readers[i]? = some rd) :
    (s.step (s.app.threads.length + i)).readers[i]? = some { rd with pc := (readStep rd.twice s.app.mem s.app.hdr rd.pc).1 } := by
  unfold RSys.step
  rw [if_neg (by omega), Nat.add_sub_cancel_left, h]
  dsimp only
  rw [List.getElem?_set_self (List.getElem?_eq_some_iff.1 h).1]

/-- C119: whatever the other goroutines do, a reading goroutine that makes as many steps as the script had bytes, plus the bytes of all calls, plus three, has returned. -/
theorem C119_finishes (m : Mem) (v : Hdr) (w : v.WF m) (ops : List ScriptAppend) (readers : List Bool) (i : Nat) (tw : Bool) (hi : readers[i]? = some tw) (sch : List Nat)
    (h : (v.data m).length + (ops.flatMap added).length + 3 ≤ sch.count (ops.length + i)) : ∃ n b, ((startR m v ops readers).run sch).readers[i]? = some ⟨tw, .done n b⟩ := by
  have key : ∀ sch : List Nat, ∃ pc, ((startR m v ops readers).run sch).readers[i]? = some ⟨tw, pc⟩ ∧
      readLeft ((v.data m).length + (ops.flatMap added).length) pc ≤ (v.data m).length + (ops.flatMap added).length + 3 - sch.count (ops.length + i) := by
    intro sch
    induction sch using List.reverseRecOn with
    | nil => exact ⟨.load, by simp [RSys.run, startR, hi], by simp [readLeft]⟩
    | append_singleton sch u ih =>
      obtain ⟨pc, h1, h2⟩ := ih
      obtain ⟨slot, I, -⟩ := rinv_run (ops := ops) w readers sch
      rw [rsys_run_snoc]
      by_cases c : u = ops.length + i
      · subst c
        have := readLeft_step tw ((startR m v ops readers).run sch).app.mem ((startR m v ops readers).run sch).app.hdr _ (hdr_len_le I) pc
        refine ⟨(readStep tw ((startR m v ops readers).run sch).app.mem ((startR m v ops readers).run sch).app.hdr pc).1, ?_, ?_⟩
        · rw [← Inv.threads_length I]
          exact reader_own _ i _ h1
        · rw [List.count_append, List.count_singleton_self]; omega
      · refine ⟨pc, ?_, ?_⟩
        · rw [reader_other _ _ _ (by rw [Inv.threads_length I]; exact c)]; exact h1
        · rw [List.count_append, List.count_singleton, beq_false_of_ne c]; exact h2
  obtain ⟨pc, h1, h2⟩ := key sch
  have : readLeft ((v.data m).length + (ops.flatMap added).length) pc = 0 := by omega
  cases pc <;> simp [readLeft] at this
  exact ⟨_, _, h1⟩

/-! ## Data races -/

/-- What the log knows. -/
structure ReadLog (ops : List ScriptAppend) (s : RSys) : Prop where
  own : ∀ a ∈ s.app.log, (∃ d, Puts ops a.by_ d) ∨ (a.write = false ∧ ∃ i < s.readers.length, a.by_ = ops.length + i)
  stored : ∀ t d, Puts ops t d → Done s.app.threads t → ⟨t, true, .header 0⟩ ∈ s.app.log
  looked : ∀ (i : Nat) rd, s.readers[i]? = some rd → rd.pc ≠ .load → ⟨ops.length + i, false, .header 0⟩ ∈ s.app.log

theorem readLog_run (m : Mem) (v : Hdr) (w : v.WF m) (ops : List ScriptAppend) (readers : List Bool) (sch : List Nat) : ReadLog ops ((startR m v ops readers).run sch) := by
  induction sch using List.reverseRecOn with
  | nil =>
    refine ⟨by simp [RSys.run, startR, start], ?_, ?_⟩
    · rintro t d ⟨op, h1, h2⟩ ⟨x, h3, h4⟩
      simp only [RSys.run, startR, start, List.foldl_nil, List.getElem?_map, h1, Option.map_some] at h3
      cases h3
      simp [thread, h2] at h4
    · intro i rd h hp
      simp only [RSys.run, startR, List.foldl_nil, List.getElem?_map, Option.map_eq_some_iff] at h
      obtain ⟨tw, -, rfl⟩ := h
      exact absurd rfl hp
  | append_singleton sch t ih =>
    obtain ⟨slot, I, -⟩ := rinv_run (ops := ops) w readers sch
    rw [rsys_run_snoc]
    generalize (startR m v ops readers).run sch = s at I ih
    have hlen := Inv.threads_length I
    by_cases c : t < s.app.threads.length
    · have est : s.step t = { s with app := Torn.step s.app t } := by unfold RSys.step; rw [if_pos c]
      obtain ⟨th, ht⟩ : ∃ th, s.app.threads[t]? = some th := ⟨_, List.getElem?_eq_getElem c⟩
      have el : (Torn.step s.app t).log = s.app.log ++ (pcStep th.data th.grow s.app.mem s.app.hdr th.pc).2.2.2.map fun a => ⟨t, a.1, a.2⟩ := by unfold Torn.step; rw [ht]
      rw [est]
      refine ⟨?_, ?_, ?_⟩
      · intro a ha
        dsimp only at ha ⊢
        rw [el] at ha
        rcases List.mem_append.1 ha with ha | ha
        · exact ih.own a ha
        · obtain ⟨b, hb, rfl⟩ := List.mem_map.1 ha
          refine .inl ⟨th.data, I.writes ht ?_⟩
          intro hd
          rw [hd] at hb
          simp [pcStep] at hb
      · intro u d hu hd
        dsimp only at hd ⊢
        rw [el]
        by_cases c : u = t
        · subst c
          obtain ⟨x, k1, k2⟩ := hd
          rw [(torn_step_eq ht).2.2, List.getElem?_set_self (List.getElem?_eq_some_iff.1 ht).1] at k1
          cases k1
          dsimp only at k2
          have hst := ih.stored u d hu
          generalize hpc : th.pc = pc at k2 ⊢
          cases pc with
          | load => simp [pcStep] at k2
          | place s' => simp only [pcStep] at k2; split_ifs at k2
          | write s' i => simp only [pcStep] at k2; split_ifs at k2
          | copy s' acc => simp only [pcStep] at k2; split_ifs at k2
          | store k => simp [pcStep]
          | done => exact List.mem_append_left _ (hst ⟨th, ht, hpc⟩)
        · obtain ⟨x, k1, k2⟩ := hd
          rw [(torn_step_eq ht).2.2, List.getElem?_set_ne (Ne.symm c)] at k1
          exact List.mem_append_left _ (ih.stored u d hu ⟨x, k1, k2⟩)
      · intro i rd h1 h2
        dsimp only
        rw [el]
        exact List.mem_append_left _ (ih.looked i rd h1 h2)
    · rcases hrd : s.readers[t - s.app.threads.length]? with _ | rd
      · have est : s.step t = s := by unfold RSys.step; rw [if_neg c, hrd]
        rw [est]; exact ih
      · have est : s.step t = { app := { s.app with log := s.app.log ++ (readStep rd.twice s.app.mem s.app.hdr rd.pc).2.map fun a => ⟨t, a.1, a.2⟩ }, readers := s.readers.set (t - s.app.threads.length) { rd with pc := (readStep rd.twice s.app.mem s.app.hdr rd.pc).1 } } := by
          unfold RSys.step; rw [if_neg c, hrd]
        rw [est]
        have hlt := (List.getElem?_eq_some_iff.1 hrd).1
        refine ⟨?_, fun t' d h1 h2 => List.mem_append_left _ (ih.stored t' d h1 h2), ?_⟩
        · intro a ha
          dsimp only at ha ⊢
          rw [List.length_set]
          rcases List.mem_append.1 ha with ha | ha
          · exact ih.own a ha
          · obtain ⟨b, hb, rfl⟩ := List.mem_map.1 ha
            refine .inr ⟨?_, t - s.app.threads.length, hlt, by dsimp only; omega⟩
            dsimp only
            generalize rd.pc = pc at hb
            cases pc with
            | load => simp [readStep] at hb; rw [hb]
            | reload n => simp [readStep] at hb; rw [hb]
            | read n h acc =>
              simp only [readStep] at hb
              split_ifs at hb
              · simp at hb; rw [hb]
              · simp at hb
            | done n x => simp [readStep] at hb
        · intro i x hx hp
          dsimp only at hx ⊢
          by_cases hi : i = t - s.app.threads.length
          · rw [← hi] at hx hlt hrd
            rw [List.getElem?_set_self hlt] at hx
            cases hx
            have hti : ops.length + i = t := by omega
            by_cases hpc : rd.pc = .load
            · rw [hpc, hti]
              simp [readStep]
            · exact List.mem_append_left _ (ih.looked i rd hrd hpc)
          · rw [List.getElem?_set_ne (Ne.symm hi)] at hx
            exact List.mem_append_left _ (ih.looked i x hx hp)

/-- C119: when all goroutines have returned, there has been a data race when and only when two of the appends succeeded, or one did and somebody read. -/
theorem C119_races (m : Mem) (v : Hdr) (w : v.WF m) (ops : List ScriptAppend) (readers : List Bool) (sch : List Nat) (hf : ((startR m v ops readers).run sch).app.finished)
    (hr : ∀ rd ∈ ((startR m v ops readers).run sch).readers, ∃ n b, rd.pc = .done n b) :
    BuildRace ((startR m v ops readers).run sch).app.log ↔ (∃ t u d e, t ≠ u ∧ Puts ops t d ∧ Puts ops u e) ∨ ((∃ t d, Puts ops t d) ∧ readers ≠ []) := by
  have L := readLog_run m v w ops readers sch
  obtain ⟨slot, I, -⟩ := rinv_run (ops := ops) w readers sch
  have rl : ((startR m v ops readers).run sch).readers.length = readers.length := by
    clear hf hr L I
    induction sch using List.reverseRecOn with
    | nil => simp [RSys.run, startR]
    | append_singleton sch t ih =>
      rw [rsys_run_snoc, ← ih]
      unfold RSys.step
      split_ifs
      · rfl
      · split
        · rfl
        · simp
  constructor
  · rintro ⟨a, ha, b, hb, hne, -, hw⟩
    rcases L.own a ha with ⟨d, h1⟩ | ⟨h1, -⟩
    · rcases L.own b hb with ⟨e, h2⟩ | ⟨-, i, h3, -⟩
      · exact .inl ⟨_, _, d, e, hne, h1, h2⟩
      · refine .inr ⟨⟨_, d, h1⟩, fun e => ?_⟩
        rw [rl, e] at h3
        simp at h3
    · rw [h1] at hw; cases hw
  · have dn : ∀ (x : Nat) (d : Bytes), Puts ops x d → Done ((startR m v ops readers).run sch).app.threads x := by
      rintro x d ⟨op, ho, -⟩
      have hlen : x < ((startR m v ops readers).run sch).app.threads.length := by
        rw [Inv.threads_length I]; exact (List.getElem?_eq_some_iff.1 ho).1
      exact ⟨_, List.getElem?_eq_getElem hlen, hf _ (List.getElem_mem hlen)⟩
    rintro (⟨t, u, d, e, hne, h1, h2⟩ | ⟨⟨t, d, h1⟩, h2⟩)
    · exact ⟨_, L.stored t d h1 (dn t d h1), _, L.stored u e h2 (dn u e h2), hne, rfl, rfl⟩
    · have h0 : 0 < ((startR m v ops readers).run sch).readers.length := by rw [rl]; exact List.length_pos_iff.2 h2
      obtain ⟨n, b, e⟩ := hr _ (List.getElem_mem h0)
      refine ⟨_, L.stored t d h1 (dn t d h1), _, L.looked 0 _ (List.getElem?_eq_getElem h0) (by rw [e]; simp), ?_, rfl, rfl⟩
      obtain ⟨op, ho, -⟩ := h1
      have := (List.getElem?_eq_some_iff.1 ho).1
      dsimp only
      omega

/-! ## Cases -/

/-- Each call that appends makes all its steps without another one beginning: such a schedule is orderly. -/
theorem orderly_one (m : Mem) (v : Hdr) (w : v.WF m) (op : ScriptAppend) (readers : List Bool) (sch : List Nat) : Orderly (startR m v [op] readers) sch := by
  rintro p q - t u ⟨x, h1, -⟩ ⟨y, h2, -⟩
  obtain ⟨slot, I, -⟩ := rinv_run (ops := [op]) w readers p
  have hl := Inv.threads_length I
  have h1 := (List.getElem?_eq_some_iff.1 h1).1
  have h2 := (List.getElem?_eq_some_iff.1 h2).1
  simp at hl
  omega

/-- C119 is violated (what `Output.ToBytes` returns while a goroutine appends is not the serialisation of the output with the script of any moment): with one goroutine that appends an opcode, and one that serialises the
output, the result can begin like an output with a script of one byte and go on with two. -/
theorem C119_output_violated : ∃ (m : Mem) (v : Hdr) (op : ScriptAppend) (sch : List Nat) (n : Nat) (b : Bytes), v.WF m ∧ Orderly (startR m v [op] [true]) sch ∧
    ((startR m v [op] [true]).run sch).app.finished ∧ ((startR m v [op] [true]).run sch).readers = [⟨true, .done n b⟩] ∧
    ∀ (sats sats' : UInt64) (script : Bytes), outputRead sats n b ≠ Output.ToBytes ⟨sats', script⟩ := by
  refine ⟨exRoom, exRoomHdr, .opcode 0x76 0, [1, 0, 0, 0, 0, 0, 1, 1, 1, 1], 1, [0x51, 0x76], exRoom_wf, orderly_one _ _ exRoom_wf _ _ _, ?_, by decide +kernel, ?_⟩
  · intro x hx
    have hk : (((startR exRoom exRoomHdr [.opcode 0x76 0] [true]).run [1, 0, 0, 0, 0, 0, 1, 1, 1, 1]).app.threads.map (·.pc)).all (· == .done) = true := by decide +kernel
    rw [List.all_eq_true] at hk
    simpa using hk x.pc (List.mem_map_of_mem hx)
  · intro sats sats' script e
    unfold outputRead Output.ToBytes at e
    dsimp only at e
    rw [List.append_assoc, List.append_assoc] at e
    have e := (List.append_inj e (by simp)).2
    obtain ⟨e1, rfl⟩ := VarInt_prefix_free e
    revert e1
    decide +kernel


/-- Two pushes, made one after the other by goroutines 0 and 1, while goroutine 2 reads (`ToString`, say) and goroutine 3 serialises the output. -/
def exReads : List Nat := [0, 3, 0, 0, 0, 0, 2, 0, 0, 2, 1, 1, 3, 1, 2, 1, 1, 1, 1, 1, 1, 2, 2, 3, 3, 3, 3, 3, 3, 3, 3, 3]

theorem exReads_orderly : Orderly (startR exRoom exRoomHdr exPushes [false, true]) exReads := by
  have key : ∀ n ≤ 32, ((((startR exRoom exRoomHdr exPushes [false, true]).run (exReads.take n)).app.threads.map (·.pc)).filter fun pc => pc != .load && pc != .done).length ≤ 1 := by decide +kernel
  have two : ∀ n ≤ 32, ((startR exRoom exRoomHdr exPushes [false, true]).run (exReads.take n)).app.threads.length = 2 := by decide +kernel
  rintro p q e t u ⟨x, h1, h2, h3⟩ ⟨y, h4, h5, h6⟩
  have hp : p = exReads.take p.length := by rw [e, List.take_left]
  have hl : p.length ≤ 32 := by have := congrArg List.length e; simp [exReads] at this; omega
  have k := key p.length hl
  have k2 := two p.length hl
  rw [← hp] at k k2
  generalize ((startR exRoom exRoomHdr exPushes [false, true]).run p).app.threads = ths at *
  match ths, k2 with
  | [a, b], _ =>
    match t, u, h1, h4 with
    | 0, 0, _, _ => rfl
    | 1, 1, _, _ => rfl
    | 0, 1, h1, h4 => cases h1; cases h4; simp [h2, h3, h5, h6] at k
    | 1, 0, h1, h4 => cases h1; cases h4; simp [h2, h3, h5, h6] at k
    | _ + 2, _, h1, _ => simp at h1
    | _, _ + 2, _, h4 => simp at h4

/-- Both pushes are in the script at the end; the reader that began while the first push was under way has read the script without it; `ToBytes` has announced one byte and written four. -/
example : let s := (startR exRoom exRoomHdr exPushes [false, true]).run exReads
    s.app.threads.map (·.pc) = [.done, .done] ∧ s.script = [0x51, 2, 0xaa, 0xbb, 2, 0xcc, 0xdd] ∧ s.readers = [⟨false, .done 1 [0x51]⟩, ⟨true, .done 1 [0x51, 2, 0xaa, 0xbb]⟩] := by decide +kernel

example : ∃ p q, exReads = p ++ 2 :: q ∧ 2 ∉ p ∧ [0x51] = ((startR exRoom exRoomHdr exPushes [false, true]).run p).script := by
  obtain ⟨p, q, h1, h2, h3, -⟩ := C119_orderly exRoom exRoomHdr exRoom_wf exPushes [false, true] exReads exReads_orderly 0 1 [0x51] (by decide +kernel)
  exact ⟨p, q, h1, h2, h3⟩

example : BuildRace ((startR exRoom exRoomHdr [.opcode 0x76 0] [true]).run [1, 0, 0, 0, 0, 0, 1, 1, 1, 1]).app.log := by
  refine (C119_races exRoom exRoomHdr exRoom_wf [.opcode 0x76 0] [true] _ ?_ ?_).2 (.inr ⟨⟨0, [0x76], _, rfl, rfl⟩, by simp⟩)
  · intro x hx
    have hk : (((startR exRoom exRoomHdr [.opcode 0x76 0] [true]).run [1, 0, 0, 0, 0, 0, 1, 1, 1, 1]).app.threads.map (·.pc)).all (· == .done) = true := by decide +kernel
    rw [List.all_eq_true] at hk
    simpa using hk x.pc (List.mem_map_of_mem hx)
  · rw [show ((startR exRoom exRoomHdr [.opcode 0x76 0] [true]).run [1, 0, 0, 0, 0, 0, 1, 1, 1, 1]).readers = [⟨true, .done 1 [0x51, 0x76]⟩] by decide +kernel]
    simp

/-- The four evaluations of `GetPublicKeyHash` after 1, 9, 10 and 11 steps of that schedule. -/
example : let r := fun n => ((startR exRoom exRoomHdr exPushes [false, true]).run (exReads.take n)).script
    pkhRead (r 1) (r 9) (r 10) (r 11) = .err "Not a P2PKH" := by decide +kernel

/-- Without order among the appends a reader sees a mixture (here of two pushes that are both under way). -/
example : ((startR exRoom exRoomHdr exPushes [false]).run [0, 0, 1, 1, 0, 1, 0, 1, 1, 0, 0, 0, 1, 2, 2, 2, 2, 2, 2]).readers = [⟨false, .done 4 [0x51, 2, 0xcc, 0xbb]⟩] := by decide +kernel

end Verif.Props
