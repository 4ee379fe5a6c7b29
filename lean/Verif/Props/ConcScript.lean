import Verif.Lemmas.ConcScript
import Verif.Spec.Memory
import Mathlib.Data.List.Dedup
import Mathlib.Data.List.Induction
import Mathlib.Data.List.Perm.Subperm
import Mathlib.Algebra.Order.BigOperators.Group.List
/-!
# C118: goroutines appending to one script
-/
namespace Verif.Props
open Verif Verif.Spec Verif.Torn

/-! ## Every schedule -/

theorem script_length {m : Mem} {v : Hdr} {ops : List ScriptAppend} {slot : Nat → Option Nat} {s : Sys} (I : Inv ops m v slot s) : s.script.length = s.hdr.len := I.hdr.wf.len_data

theorem entries_mixture {B l : Bytes} {ops : List ScriptAppend} {slot : Nat → Option Nat} (slots : ∀ t o, slot t = some o → ∃ us n, Together ops us n ∧ t ∉ us ∧ o = B.length + n)
    (ent : ∀ p x, l[p]? = some x → EntOK ops slot B p x) {us : List Nat} {n : Nat} (h1 : Together ops us n) (h2 : l.length = B.length + n) :
    Mixture ops B us (fun t => (slot t).getD B.length) l := by
  refine ⟨⟨l.drop B.length, ?_, ?_⟩, ?_, ?_⟩
  · have : l.take B.length = B := by
      apply List.ext_getElem?
      intro i
      rw [List.getElem?_take]
      split_ifs with c
      · have hi : i < l.length := by omega
        have k2 := ent i _ (List.getElem?_eq_getElem hi)
        unfold EntOK at k2
        rw [if_pos c] at k2
        rw [k2, List.getElem?_eq_getElem hi]
      · rw [List.getElem?_eq_none (by omega)]
    conv_lhs => rw [← List.take_append_drop B.length l, this]
  · rw [List.length_drop, h2, Nat.add_sub_cancel_left]; exact h1
  · intro t
    cases ht : slot t with
    | none => exact ⟨[], 0, together_nil, by simp, by simp⟩
    | some o =>
      obtain ⟨us, n, k1, k2, k3⟩ := slots t o ht
      exact ⟨us, n, k1, k2, k3⟩
  · intro p x hp hx
    have k2 := ent p x hx
    unfold EntOK at k2
    rw [if_neg (by omega)] at k2
    obtain ⟨t, d, i, o, w, hd, hs, rfl⟩ := k2
    exact ⟨t, d, i, w, hd, by rw [hs]; rfl⟩

theorem inv_mixture {m : Mem} {v : Hdr} {ops : List ScriptAppend} {slot : Nat → Option Nat} {s : Sys} (I : Inv ops m v slot s) {us : List Nat} {n : Nat} (h1 : Sel ops s.threads us n)
    (h2 : s.hdr.len = (v.data m).length + n) : Mixture ops (v.data m) us (fun t => (slot t).getD (v.data m).length) s.script := by
  have hl := script_length I
  refine entries_mixture I.slots (fun p x hx => ?_) h1.1 (by omega)
  have hpl : p < s.hdr.len := by rw [← hl]; exact (List.getElem?_eq_some_iff.1 hx).1
  obtain ⟨y, k1, k2⟩ := I.hdr.ent p hpl
  rw [show s.script[p]? = _ from data_get s.mem p hpl, k1] at hx
  cases hx
  exact k2

/-- C118, at any moment of any schedule of any number of calls: the bytes that were in the script at the start are there, in place; behind them are as many bytes as some of the calls append in all, and each of them
is the byte that some call puts at its place. No other byte (no spare capacity, no bytes of other objects) is ever seen. -/
theorem C118_always (m : Mem) (v : Hdr) (w : v.WF m) (ops : List ScriptAppend) (sch : List Nat) :
    ∃ ts off, Mixture ops (v.data m) ts off (run (start m v ops) sch).script := by
  obtain ⟨slot, I⟩ := inv_run w sch (inv_start w ops)
  obtain ⟨us, n, h1, h2, -⟩ := I.sel
  exact ⟨us, _, inv_mixture I h1 h2⟩

/-- C118: when all have returned and one of the calls succeeded, the room of at least one call is there: the script is not what it was, unless that call appends nothing. -/
theorem C118_finished (m : Mem) (v : Hdr) (w : v.WF m) (ops : List ScriptAppend) (sch : List Nat) (hf : (run (start m v ops) sch).finished) (t : Nat) (d : Bytes) (ht : Puts ops t d) :
    ∃ ts off, Mixture ops (v.data m) ts off (run (start m v ops) sch).script ∧ ts ≠ [] := by
  obtain ⟨slot, I⟩ := inv_run w sch (inv_start w ops)
  obtain ⟨us, n, h1, h2, h3⟩ := I.sel
  refine ⟨us, _, inv_mixture I h1 h2, h3 ⟨t, d, ht, ?_⟩⟩
  obtain ⟨op, ho, -⟩ := ht
  have hlen : t < (run (start m v ops) sch).threads.length := by
    have := congrArg List.length I.same
    simp only [List.length_map] at this
    rw [this]; exact (List.getElem?_eq_some_iff.1 ho).1
  exact ⟨_, List.getElem?_eq_getElem hlen, hf _ (List.getElem_mem hlen)⟩

/-- C118: at any moment of any schedule, all memory that existed at the start is as it was, but for the spare capacity of the script. -/
theorem C118_memory (m : Mem) (v : Hdr) (w : v.WF m) (ops : List ScriptAppend) (sch : List Nat) : OnlySpare m v (run (start m v ops) sch).mem := by
  obtain ⟨slot, I⟩ := inv_run w sch (inv_start w ops)
  exact I.mem

/-! ## Single bytes are never torn -/

theorem choose_calls {ops : List ScriptAppend} {off : Nat → Nat} : ∀ (R : Bytes) (o : Nat), (∀ i x, R[i]? = some x → ∃ t, Puts ops t [x] ∧ off t = o + i) →
    ∃ ts : List Nat, ts.Nodup ∧ List.Forall₂ (fun t x => Puts ops t [x]) ts R ∧ ∀ t ∈ ts, o ≤ off t
  | [], o, _ => ⟨[], List.nodup_nil, .nil, by simp⟩
  | x :: R, o, h => by
    obtain ⟨t, h1, h2⟩ := h 0 x rfl
    obtain ⟨ts, k1, k2, k3⟩ := choose_calls (ops := ops) (off := off) R (o + 1) (fun i y hy => by
      obtain ⟨u, hu1, hu2⟩ := h (i + 1) y hy
      exact ⟨u, hu1, by omega⟩)
    refine ⟨t :: ts, List.nodup_cons.2 ⟨fun ht => ?_, k1⟩, .cons h1 k2, ?_⟩
    · have := k3 t ht; omega
    · intro u hu
      rcases List.mem_cons.1 hu with rfl | hu
      · omega
      · have := k3 u hu; omega

/-- C118: when every call appends a single byte (`AppendOpCode`), the script is, at any moment, what it was followed by the opcodes of some of the calls, each call's at most once. -/
theorem C118_opcodes (m : Mem) (v : Hdr) (w : v.WF m) (ops : List ScriptAppend) (one : ∀ t d, Puts ops t d → d.length = 1) (sch : List Nat) :
    ∃ (ts : List Nat) (xs : Bytes), ts.Nodup ∧ List.Forall₂ (fun t x => Puts ops t [x]) ts xs ∧ (run (start m v ops) sch).script = v.data m ++ xs := by
  obtain ⟨us, off, ⟨rest, hr, -⟩, -, hb⟩ := C118_always m v w ops sch
  obtain ⟨ts, h1, h2, -⟩ := choose_calls (ops := ops) (off := off) rest (v.data m).length (fun i x hx => by
    obtain ⟨t, d, j, k1, k2, k3⟩ := hb ((v.data m).length + i) x (by omega) (by rw [hr, List.getElem?_append_right (by omega), Nat.add_sub_cancel_left]; exact hx)
    have hd := one t d k1
    have hj : j = 0 := by have := (List.getElem?_eq_some_iff.1 k2).1; omega
    subst hj
    obtain ⟨y, rfl⟩ := List.length_eq_one_iff.1 hd
    cases k2
    exact ⟨t, k1, by omega⟩)
  exact ⟨ts, rest, h1, h2, hr⟩

/-! ## One goroutine for a while -/

theorem torn_run_append (s : Sys) (a b : List Nat) : run s (a ++ b) = run (run s a) b := List.foldl_append ..

theorem torn_step_eq {s : Sys} {t : Nat} {th : Thread} (ht : s.threads[t]? = some th) : (step s t).mem = (pcStep th.data th.grow s.mem s.hdr th.pc).1 ∧
    (step s t).hdr = (pcStep th.data th.grow s.mem s.hdr th.pc).2.1 ∧ (step s t).threads = s.threads.set t { th with pc := (pcStep th.data th.grow s.mem s.hdr th.pc).2.2.1 } := by
  unfold step
  rw [ht]
  exact ⟨rfl, rfl, rfl⟩

theorem torn_idle {t : Nat} {d : Bytes} {k : Nat} : ∀ (n : Nat) {s : Sys}, s.threads[t]? = some ⟨d, k, .done⟩ →
    (run s (List.replicate n t)).mem = s.mem ∧ (run s (List.replicate n t)).hdr = s.hdr ∧ (run s (List.replicate n t)).threads = s.threads
  | 0, s, h => ⟨rfl, rfl, rfl⟩
  | n + 1, s, h => by
    obtain ⟨h1, h2, h3⟩ := torn_step_eq h
    simp only [pcStep] at h1 h2 h3
    have e : s.threads.set t ⟨d, k, .done⟩ = s.threads := by
      apply List.ext_getElem?
      intro u
      rw [List.getElem?_set]
      split_ifs with c1 c2
      · subst c1; exact h.symm
      · subst c1; rw [List.getElem?_eq_none (by omega)]
      · rfl
    rw [e] at h3
    obtain ⟨k1, k2, k3⟩ := torn_idle n (s := step s t) (by rw [h3]; exact h)
    exact ⟨k1.trans h1, k2.trans h2, k3.trans h3⟩

theorem write_nil (m : Mem) (a pos : Nat) : m.write a pos [] = m := by
  unfold Mem.write
  simp only [List.append_nil, List.length_nil, Nat.add_zero, List.take_append_drop]
  apply List.ext_getElem?
  intro u
  rw [List.getElem?_set]
  split_ifs with c1 c2
  · subst c1; simp [Mem.bytes, List.getD_eq_getElem?_getD, c2]
  · subst c1; rw [List.getElem?_eq_none (by omega)]
  · rfl

theorem write_cons (m : Mem) (a pos : Nat) (x : UInt8) (r : Bytes) (ha : a < m.length) (hp : pos + (x :: r).length ≤ (m.bytes a).length) :
    (m.write a pos [x]).write a (pos + 1) r = m.write a pos (x :: r) := by
  have e : (m.write a pos [x]).bytes a = (m.bytes a).take pos ++ [x] ++ (m.bytes a).drop (pos + [x].length) := Mem.bytes_write_eq ha
  simp only [List.length_cons] at hp
  rw [show (m.write a pos [x]).write a (pos + 1) r = (m.write a pos [x]).set a (((m.write a pos [x]).bytes a).take (pos + 1) ++ r ++ ((m.write a pos [x]).bytes a).drop (pos + 1 + r.length)) from rfl, e]
  unfold Mem.write
  rw [List.set_set]
  congr 1
  have hl : ((m.bytes a).take pos ++ [x]).length = pos + 1 := by simp; omega
  rw [List.take_left' hl, List.append_assoc, List.drop_append, hl, List.drop_eq_nil_of_le (by rw [hl]; omega), List.drop_drop]
  simp [Nat.add_comm, Nat.add_left_comm]

theorem torn_set_set (l : List Thread) (t : Nat) (a b : Thread) : (l.set t a).set t b = l.set t b := List.set_set ..

theorem torn_solo_store {t : Nat} {d : Bytes} {k : Nat} {h : Hdr} {s : Sys} (n : Nat) (ht : s.threads[t]? = some ⟨d, k, .store h⟩) (hn : 1 ≤ n) :
    (run s (List.replicate n t)).mem = s.mem ∧ (run s (List.replicate n t)).hdr = h ∧ (run s (List.replicate n t)).threads = s.threads.set t ⟨d, k, .done⟩ := by
  obtain ⟨n, rfl⟩ : ∃ m, n = m + 1 := ⟨n - 1, by omega⟩
  obtain ⟨h1, h2, h3⟩ := torn_step_eq ht
  simp only [pcStep] at h1 h2 h3
  obtain ⟨k1, k2, k3⟩ := torn_idle (t := t) (d := d) (k := k) n (s := step s t) (by rw [h3, List.getElem?_set_self (List.getElem?_eq_some_iff.1 ht).1])
  exact ⟨k1.trans h1, k2.trans h2, k3.trans h3⟩

theorem torn_solo_write {t : Nat} {d : Bytes} {k : Nat} {h : Hdr} : ∀ (j i : Nat) {s : Sys} (n : Nat), s.threads[t]? = some ⟨d, k, .write h i⟩ → h.WF s.mem → h.len + d.length ≤ h.cap → d.length = i + j →
    j + 2 ≤ n → (run s (List.replicate n t)).mem = s.mem.write h.arr (h.off + h.len + i) (d.drop i) ∧ (run s (List.replicate n t)).hdr = { h with len := h.len + d.length } ∧
      (run s (List.replicate n t)).threads = s.threads.set t ⟨d, k, .done⟩
  | 0, i, s, n, ht, hw, hc, hi, hn => by
    obtain ⟨n, rfl⟩ : ∃ m, n = m + 1 := ⟨n - 1, by omega⟩
    obtain ⟨h1, h2, h3⟩ := torn_step_eq ht
    simp only [pcStep, if_neg (show ¬ i < d.length by omega)] at h1 h2 h3
    obtain ⟨k1, k2, k3⟩ := torn_solo_store n (s := step s t) (t := t) (by rw [h3, List.getElem?_set_self (List.getElem?_eq_some_iff.1 ht).1]) (by omega)
    refine ⟨?_, k2, by rw [show run s (List.replicate (n + 1) t) = run (step s t) (List.replicate n t) from rfl, k3, h3, List.set_set]⟩
    rw [show run s (List.replicate (n + 1) t) = run (step s t) (List.replicate n t) from rfl, k1, h1, List.drop_eq_nil_of_le (by omega), write_nil]
  | j + 1, i, s, n, ht, hw, hc, hi, hn => by
    obtain ⟨n, rfl⟩ : ∃ m, n = m + 1 := ⟨n - 1, by omega⟩
    have hid : i < d.length := by omega
    obtain ⟨h1, h2, h3⟩ := torn_step_eq ht
    simp only [pcStep, if_pos hid] at h1 h2 h3
    have hp : h.off + h.len + i < (s.mem.bytes h.arr).length := by have := hw.cap; omega
    obtain ⟨k1, k2, k3⟩ := torn_solo_write j (i + 1) (s := step s t) n (by rw [h3, List.getElem?_set_self (List.getElem?_eq_some_iff.1 ht).1])
      (by rw [h1]; exact wf_write1 hw.arr hp hw) hc (by omega) (by omega)
    refine ⟨?_, k2, by rw [show run s (List.replicate (n + 1) t) = run (step s t) (List.replicate n t) from rfl, k3, h3, List.set_set]⟩
    rw [show run s (List.replicate (n + 1) t) = run (step s t) (List.replicate n t) from rfl, k1, h1]
    have e : d.drop i = d.getD i 0 :: d.drop (i + 1) := by
      rw [List.drop_eq_getElem_cons hid, List.getD_eq_getElem?_getD, List.getElem?_eq_getElem hid]; rfl
    rw [e]
    exact write_cons s.mem h.arr (h.off + h.len + i) _ _ hw.arr (by have := hw.cap; simp; omega)

theorem torn_solo_copy {t : Nat} {d : Bytes} {k : Nat} {h : Hdr} : ∀ (j : Nat) (acc : Bytes) {s : Sys} (n : Nat), s.threads[t]? = some ⟨d, k, .copy h acc⟩ → h.WF s.mem → h.len = acc.length + j →
    acc = (h.data s.mem).take acc.length → j + 2 ≤ n → (run s (List.replicate n t)).mem = (s.mem.fresh (h.data s.mem ++ d) k).1 ∧
      (run s (List.replicate n t)).hdr = (s.mem.fresh (h.data s.mem ++ d) k).2 ∧ (run s (List.replicate n t)).threads = s.threads.set t ⟨d, k, .done⟩
  | 0, acc, s, n, ht, hw, hi, ha, hn => by
    obtain ⟨n, rfl⟩ : ∃ m, n = m + 1 := ⟨n - 1, by omega⟩
    obtain ⟨h1, h2, h3⟩ := torn_step_eq ht
    simp only [pcStep, if_neg (show ¬ acc.length < h.len by omega)] at h1 h2 h3
    obtain ⟨k1, k2, k3⟩ := torn_solo_store n (s := step s t) (t := t) (by rw [h3, List.getElem?_set_self (List.getElem?_eq_some_iff.1 ht).1]) (by omega)
    have e : h.data s.mem = acc := by
      have := hw.len_data
      rw [ha, List.take_of_length_le (by omega)]
    rw [show run s (List.replicate (n + 1) t) = run (step s t) (List.replicate n t) from rfl, e]
    exact ⟨k1.trans h1, k2, by rw [k3, h3, List.set_set]⟩
  | j + 1, acc, s, n, ht, hw, hi, ha, hn => by
    obtain ⟨n, rfl⟩ : ∃ m, n = m + 1 := ⟨n - 1, by omega⟩
    have hal : acc.length < h.len := by omega
    obtain ⟨h1, h2, h3⟩ := torn_step_eq ht
    simp only [pcStep, if_pos hal] at h1 h2 h3
    have ha' : acc ++ [(s.mem.bytes h.arr).getD (h.off + acc.length) 0] = (h.data s.mem).take (acc.length + 1) := by
      have hl := hw.len_data
      rw [List.take_add_one, ← ha, List.getD_eq_getElem?_getD, ← data_get s.mem acc.length hal, List.getElem?_eq_getElem (by omega)]
      rfl
    obtain ⟨k1, k2, k3⟩ := torn_solo_copy j (acc ++ [(s.mem.bytes h.arr).getD (h.off + acc.length) 0]) (s := step s t) n
      (by rw [h3, List.getElem?_set_self (List.getElem?_eq_some_iff.1 ht).1]) (by rw [h1]; exact hw) (by simp; omega) (by rw [h1]; simpa using ha') (by omega)
    rw [h1] at k1 k2
    exact ⟨k1, k2, by rw [show run s (List.replicate (n + 1) t) = run (step s t) (List.replicate n t) from rfl, k3, h3, List.set_set]⟩

/-- A goroutine that makes its steps without the others does what `append` does (Go/Heap). -/
theorem torn_solo {t : Nat} {d : Bytes} {k : Nat} {s : Sys} (n : Nat) (ht : s.threads[t]? = some ⟨d, k, .load⟩) (hw : s.hdr.WF s.mem) (hn : s.hdr.len + d.length + 4 ≤ n) :
    (run s (List.replicate n t)).mem = (s.mem.append k s.hdr d).1 ∧ (run s (List.replicate n t)).hdr = (s.mem.append k s.hdr d).2 ∧
      (run s (List.replicate n t)).threads = s.threads.set t ⟨d, k, .done⟩ := by
  obtain ⟨n, rfl⟩ : ∃ m, n = m + 2 := ⟨n - 2, by omega⟩
  have er : run s (List.replicate (n + 2) t) = run (step (step s t) t) (List.replicate n t) := rfl
  obtain ⟨a1, a2, a3⟩ := torn_step_eq ht
  simp only [pcStep] at a1 a2 a3
  have ht' : (step s t).threads[t]? = some ⟨d, k, .place s.hdr⟩ := by rw [a3, List.getElem?_set_self (List.getElem?_eq_some_iff.1 ht).1]
  obtain ⟨b1, b2, b3⟩ := torn_step_eq ht'
  rw [a3, List.set_set] at b3
  unfold Mem.append
  by_cases c : s.hdr.len + d.length ≤ s.hdr.cap
  · simp only [pcStep, if_pos c] at b1 b2 b3
    rw [if_pos c, er]
    obtain ⟨k1, k2, k3⟩ := torn_solo_write d.length 0 (s := step (step s t) t) n (by rw [b3, List.getElem?_set_self (List.getElem?_eq_some_iff.1 ht).1]) (by rw [b1, a1]; exact hw) c (by omega) (by omega)
    exact ⟨by rw [k1, b1, a1]; rfl, k2, by rw [k3, b3, List.set_set]⟩
  · simp only [pcStep, if_neg c] at b1 b2 b3
    rw [if_neg c, er]
    obtain ⟨k1, k2, k3⟩ := torn_solo_copy s.hdr.len [] (s := step (step s t) t) n (by rw [b3, List.getElem?_set_self (List.getElem?_eq_some_iff.1 ht).1]) (by rw [b1, a1]; exact hw) (by simp) (by simp) (by omega)
    rw [b1, a1] at k1 k2
    exact ⟨k1, k2, by rw [k3, b3, List.set_set]⟩

/-! ## Calls that nobody interrupts -/

/-- The bytes a call appends: none when it fails. -/
def added (op : ScriptAppend) : Bytes := match op.bytes with | .ok p => p | _ => []

theorem thread_data (op : ScriptAppend) : (thread op).data = added op := by
  unfold thread added; cases op.bytes <;> rfl

theorem sel_le {ops : List ScriptAppend} {us : List Nat} {n : Nat} (h : Together ops us n) : n ≤ (ops.flatMap added).length := by
  obtain ⟨nd, ds, h1, rfl⟩ := h
  have e : ds.flatten = us.flatMap fun u => (ops[u]?.map added).getD [] := by
    clear nd
    induction h1 with
    | nil => rfl
    | cons h _ ih =>
      obtain ⟨op, k1, k2⟩ := h
      rw [List.flatten_cons, List.flatMap_cons, ih, k1]
      congr 1
      simp [added, k2]
  have sub : us ⊆ List.range ops.length := by
    clear nd e
    induction h1 with
    | nil => simp
    | cons h _ ih =>
      obtain ⟨op, k1, -⟩ := h
      intro u hu
      rcases List.mem_cons.1 hu with rfl | hu
      · exact List.mem_range.2 (List.getElem?_eq_some_iff.1 k1).1
      · exact ih hu
  obtain ⟨l, hp, hs⟩ := nd.subperm sub
  have e2 : ops.flatMap added = (List.range ops.length).flatMap fun u => (ops[u]?.map added).getD [] := by
    have h1 : ops.map added = (List.range ops.length).map fun u => (ops[u]?.map added).getD [] := by
      apply List.ext_getElem
      · simp
      · intro i h1 h2
        simp at h1
        simp [h1]
    rw [List.flatMap_def, List.flatMap_def, h1]
  rw [e, e2, List.length_flatMap, List.length_flatMap, ← (hp.map _).sum_eq]
  exact (hs.map _).sum_le_sum (fun _ _ => Nat.zero_le _)

theorem hdr_len_le {m : Mem} {v : Hdr} {ops : List ScriptAppend} {slot : Nat → Option Nat} {s : Sys} (I : Inv ops m v slot s) : s.hdr.len ≤ (v.data m).length + (ops.flatMap added).length := by
  obtain ⟨us, n, h1, h2, -⟩ := I.sel
  have := sel_le h1.1
  omega

theorem untouched (m : Mem) (v : Hdr) (ops : List ScriptAppend) (t : Nat) : ∀ (sch : List Nat) (s : Sys), t ∉ sch → (run s sch).threads[t]? = s.threads[t]?
  | [], _, _ => rfl
  | u :: sch, s, h => by
    rw [show run s (u :: sch) = run (step s u) sch from rfl, untouched m v ops t sch _ (fun c => h (by simp [c]))]
    unfold step
    split
    · rfl
    · exact List.getElem?_set_ne (fun c => h (by simp [c]))

theorem added_le {ops : List ScriptAppend} {t : Nat} {op : ScriptAppend} (h : ops[t]? = some op) : (added op).length ≤ (ops.flatMap added).length :=
  (List.sublist_flatten_of_mem (List.mem_map_of_mem (List.mem_of_getElem? h))).length_le

/-- C118: a call that no other goroutine interrupts, whatever the others did before and wherever they are, does to memory and variable exactly what the call does in a program with one goroutine. -/
theorem C118_undisturbed (m : Mem) (v : Hdr) (w : v.WF m) (ops : List ScriptAppend) (sch : List Nat) (t : Nat) (op : ScriptAppend) (ho : ops[t]? = some op) (ht : t ∉ sch) (n : Nat)
    (hn : (v.data m).length + 2 * (ops.flatMap added).length + 4 ≤ n) :
    let s := run (start m v ops) sch
    let s' := run (start m v ops) (sch ++ List.replicate n t)
    (s'.mem, s'.hdr) = op.run s.mem s.hdr ∧ s'.script = s.script ++ added op ∧ Done s'.threads t := by
  intro s s'
  obtain ⟨slot, I⟩ := inv_run w sch (inv_start w ops)
  have hlen := hdr_len_le I
  have hs' : s' = run s (List.replicate n t) := torn_run_append ..
  have hth : s.threads[t]? = some (thread op) := by
    rw [show s.threads[t]? = _ from untouched m v ops t sch (start m v ops) ht]
    simp [start, ho]
  have hadd := added_le ho
  rw [hs']
  by_cases hk : ∃ d, op.bytes = .ok d
  · obtain ⟨d, hk⟩ := hk
    have hd : added op = d := by simp [added, hk]
    have hth' : s.threads[t]? = some ⟨d, op.grow, .load⟩ := by rw [hth]; simp [thread, hk]
    obtain ⟨k1, k2, k3⟩ := torn_solo n hth' I.hdr.wf (by rw [hd] at hadd; have : s.hdr.len ≤ _ := hlen; omega)
    refine ⟨?_, ?_, ?_⟩
    · rw [k1, k2]; simp [ScriptAppend.run, hk]
    · unfold Sys.script
      rw [k1, k2, Mem.append_data I.hdr.wf, hd]
    · rw [k3]; exact ⟨_, List.getElem?_set_self (List.getElem?_eq_some_iff.1 hth).1, rfl⟩
  · have hk' : ∀ d, op.bytes ≠ .ok d := fun d h => hk ⟨d, h⟩
    have e : thread op = ⟨[], op.grow, .done⟩ := by
      unfold thread; split
      · next d h => exact absurd h (hk' d)
      · rfl
    rw [e] at hth
    obtain ⟨k1, k2, k3⟩ := torn_idle n hth
    refine ⟨?_, ?_, ?_⟩
    · rw [k1, k2]; unfold ScriptAppend.run; split
      · next d h => exact absurd h (hk' d)
      · rfl
    · unfold Sys.script
      rw [k1, k2]
      unfold added; split
      · next d h => exact absurd h (hk' d)
      · simp
    · rw [k3]; exact ⟨_, hth, rfl⟩

/-- C118: goroutines that make their calls one after the other, in any order: the script is what it was followed by what they append, in that order. -/
theorem C118_in_turn (m : Mem) (v : Hdr) (w : v.WF m) (ops : List ScriptAppend) (us : List Nat) (nd : us.Nodup) (hu : ∀ u ∈ us, u < ops.length) (n : Nat)
    (hn : (v.data m).length + 2 * (ops.flatMap added).length + 4 ≤ n) :
    (run (start m v ops) (us.flatMap fun u => List.replicate n u)).script = v.data m ++ us.flatMap fun u => (ops[u]?.map added).getD [] := by
  induction us using List.reverseRecOn with
  | nil => simp [run, start, Sys.script]
  | append_singleton us u ih =>
    have hnd := List.nodup_append.1 nd
    have hu' : u ∉ us := fun c => hnd.2.2 u c u (by simp) rfl
    rw [List.flatMap_append, List.flatMap_append, List.flatMap_singleton, List.flatMap_singleton]
    have ho : ops[u]? = some (ops[u]'(hu u (by simp))) := List.getElem?_eq_getElem _
    obtain ⟨-, h, -⟩ := C118_undisturbed m v w ops (us.flatMap fun u => List.replicate n u) u _ ho (by
      simp only [List.mem_flatMap, List.mem_replicate, not_exists, not_and]
      intro x hx _ e; exact hu' (e ▸ hx)) n hn
    rw [h, ih hnd.1 (fun x hx => hu x (by simp [hx])), ho, List.append_assoc]
    rfl

theorem callsValue_append (op : ScriptAppend) (base : Bytes) (rest : List ScriptCall) : callsValue [base] (.append 0 op :: rest) = callsValue [base ++ added op] rest := by
  cases op with
  | pushes d k =>
    simp only [callsValue, List.getElem?_cons_zero, List.set_cons_zero, AppendPushDataArray, added, ScriptAppend.bytes]
    cases EncodeParts d <;> simp [bind, Res.bind, pure]
  | opcode o k => simp [callsValue, AppendOpCode, added, ScriptAppend.bytes]

theorem callsValue_appends : ∀ (l : List ScriptAppend) (base : Bytes), callsValue [base] (l.map (.append 0 ·)) = [base ++ l.flatMap added]
  | [], base => by simp [callsValue]
  | op :: l, base => by rw [List.map_cons, callsValue_append, callsValue_appends l]; simp

/-- C118: all goroutines make their calls one after the other, in any order `us`: the script is the value that the calls (`AppendPushDataArray`, `AppendOpCode`) give in that order. -/
theorem C118_in_turn_calls (m : Mem) (v : Hdr) (w : v.WF m) (ops : List ScriptAppend) (us : List Nat) (nd : us.Nodup) (hu : ∀ u ∈ us, u < ops.length) (n : Nat)
    (hn : (v.data m).length + 2 * (ops.flatMap added).length + 4 ≤ n) :
    [(run (start m v ops) (us.flatMap fun u => List.replicate n u)).script] = callsValue [v.data m] (us.filterMap fun u => ops[u]?.map (.append 0 ·)) := by
  have e : (us.filterMap fun u => ops[u]?.map (ScriptCall.append 0 ·)) = (us.filterMap fun u => ops[u]?).map (.append 0 ·) := by
    rw [List.map_filterMap]
  rw [C118_in_turn m v w ops us nd hu n hn, e, callsValue_appends]
  congr 2
  clear nd e
  induction us with
  | nil => rfl
  | cons u us ih =>
    have hu0 := hu u (by simp)
    rw [List.flatMap_cons, ih (fun x hx => hu x (by simp [hx])), List.filterMap_cons, List.getElem?_eq_getElem hu0]
    simp

/-! ## Every goroutine returns -/

/-- The steps a call still needs, when no header is longer than `M`. -/
def stepsLeft (M : Nat) (d : Bytes) : PC → Nat
  | .load => M + d.length + 4
  | .place s => s.len + d.length + 3
  | .write _ i => d.length - i + 2
  | .copy s acc => s.len - acc.length + 2
  | .store _ => 1
  | .done => 0

theorem stepsLeft_step (d : Bytes) (k : Nat) (m : Mem) (v : Hdr) (M : Nat) (hM : v.len ≤ M) (pc : PC) : stepsLeft M d (pcStep d k m v pc).2.2.1 ≤ stepsLeft M d pc - 1 := by
  cases pc with
  | load => simp only [pcStep, stepsLeft]; omega
  | place s => simp only [pcStep]; split_ifs <;> simp [stepsLeft]
  | write s i => simp only [pcStep]; split_ifs <;> simp [stepsLeft]; omega
  | copy s acc => simp only [pcStep]; split_ifs <;> simp [stepsLeft]; omega
  | store h => simp [pcStep, stepsLeft]
  | done => simp [pcStep, stepsLeft]

/-- C118: whatever the other goroutines do, a goroutine that makes as many steps as the script had bytes, plus twice the bytes of all calls, plus four, has returned: none waits for another. -/
theorem C118_finishes (m : Mem) (v : Hdr) (w : v.WF m) (ops : List ScriptAppend) (t : Nat) (op : ScriptAppend) (ho : ops[t]? = some op) (sch : List Nat)
    (h : (v.data m).length + 2 * (ops.flatMap added).length + 4 ≤ sch.count t) : Done (run (start m v ops) sch).threads t := by
  have hadd := added_le ho
  have key : ∀ sch : List Nat, ∃ pc, (run (start m v ops) sch).threads[t]? = some ⟨added op, op.grow, pc⟩ ∧
      stepsLeft ((v.data m).length + (ops.flatMap added).length) (added op) pc ≤ (v.data m).length + 2 * (ops.flatMap added).length + 4 - sch.count t := by
    intro sch
    induction sch using List.reverseRecOn with
    | nil =>
      refine ⟨(thread op).pc, ?_, ?_⟩
      · simp only [run, start, List.foldl_nil, List.getElem?_map, ho, Option.map_some, ← thread_data]
        congr 1
        unfold thread; cases op.bytes <;> rfl
      · have : (thread op).pc = .load ∨ (thread op).pc = .done := by unfold thread; cases op.bytes <;> simp
        rcases this with e | e <;> rw [e] <;> simp only [stepsLeft, List.count_nil] <;> omega
    | append_singleton sch u ih =>
      obtain ⟨pc, h1, h2⟩ := ih
      rw [torn_run_append]
      by_cases c : u = t
      · subst c
        obtain ⟨slot, I⟩ := inv_run w sch (inv_start w ops)
        have := stepsLeft_step (added op) op.grow (run (start m v ops) sch).mem (run (start m v ops) sch).hdr _ (hdr_len_le I) pc
        refine ⟨(pcStep (added op) op.grow (run (start m v ops) sch).mem (run (start m v ops) sch).hdr pc).2.2.1, ?_, ?_⟩
        · show (step _ u).threads[u]? = _
          rw [(torn_step_eq h1).2.2, List.getElem?_set_self (List.getElem?_eq_some_iff.1 h1).1]
        · rw [List.count_append, List.count_singleton_self]; omega
      · refine ⟨pc, ?_, ?_⟩
        · rw [untouched m v ops t [u] _ (by simpa using Ne.symm c)]; exact h1
        · rw [List.count_append, List.count_singleton, beq_false_of_ne c]; exact h2
  obtain ⟨pc, h1, h2⟩ := key sch
  refine ⟨_, h1, ?_⟩
  have : stepsLeft ((v.data m).length + (ops.flatMap added).length) (added op) pc = 0 := by omega
  cases pc <;> simp [stepsLeft] at this ⊢

/-! ## Data races -/

/-- What the log knows: only calls that succeed touch shared memory, and one that has returned has stored the header. -/
structure ScriptLog (ops : List ScriptAppend) (s : Sys) : Prop where
  own : ∀ a ∈ s.log, ∃ d, Puts ops a.by_ d
  stored : ∀ t d, Puts ops t d → Done s.threads t → ⟨t, true, .header 0⟩ ∈ s.log

theorem scriptLog_step {m : Mem} {v : Hdr} {ops : List ScriptAppend} {slot : Nat → Option Nat} {s : Sys} (I : Inv ops m v slot s) (h : ScriptLog ops s) (t : Nat) : ScriptLog ops (step s t) := by
  rcases ht : s.threads[t]? with _ | th
  · unfold step; rw [ht]; exact h
  have el : (step s t).log = s.log ++ (pcStep th.data th.grow s.mem s.hdr th.pc).2.2.2.map fun a => ⟨t, a.1, a.2⟩ := by unfold step; rw [ht]
  refine ⟨?_, ?_⟩
  · intro a ha
    rw [el] at ha
    rcases List.mem_append.1 ha with ha | ha
    · exact h.own a ha
    · obtain ⟨b, hb, rfl⟩ := List.mem_map.1 ha
      refine ⟨th.data, I.writes ht ?_⟩
      intro hd
      rw [hd] at hb
      simp [pcStep] at hb
  · intro u d hu hd
    rw [el]
    by_cases c : u = t
    · subst c
      obtain ⟨x, k1, k2⟩ := hd
      rw [(torn_step_eq ht).2.2, List.getElem?_set_self (List.getElem?_eq_some_iff.1 ht).1] at k1
      cases k1
      dsimp only at k2
      have hst := h.stored u d hu
      generalize hpc : th.pc = pc at k2 ⊢
      cases pc with
      | load => simp [pcStep] at k2
      | place s' => simp only [pcStep] at k2; split_ifs at k2
      | write s' i => simp only [pcStep] at k2; split_ifs at k2
      | copy s' acc => simp only [pcStep] at k2; split_ifs at k2
      | store k => simp [pcStep]
      | done => exact List.mem_append_left _ (hst ⟨th, ht, hpc⟩)
    · obtain ⟨x, k1, k2⟩ := hd
      rw [(torn_step_eq ht).2.2, List.getElem?_set_ne (Ne.symm c)] at k1
      exact List.mem_append_left _ (h.stored u d hu ⟨x, k1, k2⟩)

theorem scriptLog_run (m : Mem) (v : Hdr) (w : v.WF m) (ops : List ScriptAppend) (sch : List Nat) : ScriptLog ops (run (start m v ops) sch) := by
  induction sch using List.reverseRecOn with
  | nil =>
    refine ⟨by simp [run, start], ?_⟩
    rintro t d ⟨op, h1, h2⟩ ⟨x, h3, h4⟩
    simp only [run, start, List.foldl_nil, List.getElem?_map, h1, Option.map_some] at h3
    cases h3
    simp [thread, h2] at h4
  | append_singleton sch u ih =>
    rw [torn_run_append]
    obtain ⟨slot, I⟩ := inv_run w sch (inv_start w ops)
    exact scriptLog_step I ih u

/-- C118: when all goroutines have returned, there has been a data race when and only when two of the calls succeeded. -/
theorem C118_races (m : Mem) (v : Hdr) (w : v.WF m) (ops : List ScriptAppend) (sch : List Nat) (hf : (run (start m v ops) sch).finished) :
    BuildRace (run (start m v ops) sch).log ↔ ∃ t u d e, t ≠ u ∧ Puts ops t d ∧ Puts ops u e := by
  have L := scriptLog_run m v w ops sch
  constructor
  · rintro ⟨a, ha, b, hb, hne, -, -⟩
    obtain ⟨d, h1⟩ := L.own a ha
    obtain ⟨e, h2⟩ := L.own b hb
    exact ⟨_, _, d, e, hne, h1, h2⟩
  · rintro ⟨t, u, d, e, hne, h1, h2⟩
    obtain ⟨slot, I⟩ := inv_run w sch (inv_start w ops)
    have dn : ∀ (x : Nat) (d : Bytes), Puts ops x d → Done (run (start m v ops) sch).threads x := by
      rintro x d ⟨op, ho, -⟩
      have hlen : x < (run (start m v ops) sch).threads.length := by
        have := congrArg List.length I.same
        simp only [List.length_map] at this
        rw [this]; exact (List.getElem?_eq_some_iff.1 ho).1
      exact ⟨_, List.getElem?_eq_getElem hlen, hf _ (List.getElem_mem hlen)⟩
    exact ⟨_, L.stored t d h1 (dn t d h1), _, L.stored u e h2 (dn u e h2), hne, rfl, rfl⟩

/-- C118: with at most one call that succeeds no schedule has a race, at no moment. -/
theorem C118_race_free (m : Mem) (v : Hdr) (w : v.WF m) (ops : List ScriptAppend) (one : ∀ t u d e, Puts ops t d → Puts ops u e → t = u) (sch : List Nat) :
    ¬ BuildRace (run (start m v ops) sch).log := by
  have L := scriptLog_run m v w ops sch
  rintro ⟨a, ha, b, hb, hne, -, -⟩
  obtain ⟨d, h1⟩ := L.own a ha
  obtain ⟨e, h2⟩ := L.own b hb
  exact hne (one _ _ _ _ h1 h2)

/-! ## Torn appends -/

theorem write_same (m : Mem) (a pos : Nat) (x y : UInt8) (ha : a < m.length) (hp : pos < (m.bytes a).length) : (m.write a pos [x]).write a pos [y] = m.write a pos [y] := by
  have e : (m.write a pos [x]).bytes a = (m.bytes a).take pos ++ [x] ++ (m.bytes a).drop (pos + [x].length) := Mem.bytes_write_eq ha
  rw [show (m.write a pos [x]).write a pos [y] = (m.write a pos [x]).set a (((m.write a pos [x]).bytes a).take pos ++ [y] ++ ((m.write a pos [x]).bytes a).drop (pos + [y].length)) from rfl, e]
  unfold Mem.write
  rw [List.set_set]
  congr 1
  have hl : ((m.bytes a).take pos).length = pos := by simp; omega
  have hl2 : ((m.bytes a).take pos ++ [x]).length = pos + [y].length := by simp; omega
  rw [List.drop_left' hl2, List.append_assoc ((m.bytes a).take pos) [x], List.take_left' hl]
  rfl

theorem mix_loop {a b c : Bytes} {ka kb : Nat} {v : Hdr} (hb : b.length = a.length) (hcl : c.length = a.length) (hcap : v.len + a.length ≤ v.cap)
    (hc : ∀ (i : Nat) (x : UInt8), c[i]? = some x → a[i]? = some x ∨ b[i]? = some x) : ∀ (j i : Nat) (s : Sys), s.threads = [⟨a, ka, .write v i⟩, ⟨b, kb, .write v i⟩] → v.WF s.mem →
    a.length = i + j → ∃ sch, (run s sch).mem = s.mem.write v.arr (v.off + v.len + i) (c.drop i) ∧ (run s sch).hdr = { v with len := v.len + c.length } ∧
      (run s sch).threads = [⟨a, ka, .done⟩, ⟨b, kb, .done⟩]
  | 0, i, ⟨m, h, _, log⟩, rfl, hw, hi => by
    refine ⟨[0, 0, 1, 1], ?_, ?_, ?_⟩
    · rw [List.drop_eq_nil_of_le (by omega), write_nil]
      simp [run, step, pcStep, show ¬ i < a.length by omega, show ¬ i < b.length by omega]
    · simp [run, step, pcStep, show ¬ i < a.length by omega, show ¬ i < b.length by omega]; omega
    · simp [run, step, pcStep, show ¬ i < a.length by omega, show ¬ i < b.length by omega]
  | j + 1, i, ⟨m, h, _, log⟩, rfl, hw, hi => by
    have hia : i < a.length := by omega
    have hib : i < b.length := by omega
    have hic : i < c.length := by omega
    have hp : v.off + v.len + i < (m.bytes v.arr).length := by have := hw.cap; dsimp only at this; omega
    have harr : v.arr < m.length := hw.arr
    have pair : ∃ sch, ∃ log', run ⟨m, h, [⟨a, ka, .write v i⟩, ⟨b, kb, .write v i⟩], log⟩ sch =
        ⟨m.write v.arr (v.off + v.len + i) [c[i]], h, [⟨a, ka, .write v (i + 1)⟩, ⟨b, kb, .write v (i + 1)⟩], log'⟩ := by
      rcases hc i c[i] (List.getElem?_eq_getElem hic) with e | e
      · refine ⟨[1, 0], (run ⟨m, h, [⟨a, ka, .write v i⟩, ⟨b, kb, .write v i⟩], log⟩ [1, 0]).log, ?_⟩
        simp only [run, step, pcStep, List.foldl_cons, List.foldl_nil, List.getElem?_cons_succ, List.getElem?_cons_zero, List.set_cons_succ, List.set_cons_zero, if_pos hia, if_pos hib]
        rw [write_same _ _ _ _ _ harr hp, show a.getD i 0 = c[i] by rw [List.getD_eq_getElem?_getD, e]; rfl]
      · refine ⟨[0, 1], (run ⟨m, h, [⟨a, ka, .write v i⟩, ⟨b, kb, .write v i⟩], log⟩ [0, 1]).log, ?_⟩
        simp only [run, step, pcStep, List.foldl_cons, List.foldl_nil, List.getElem?_cons_succ, List.getElem?_cons_zero, List.set_cons_succ, List.set_cons_zero, if_pos hia, if_pos hib]
        rw [write_same _ _ _ _ _ harr hp, show b.getD i 0 = c[i] by rw [List.getD_eq_getElem?_getD, e]; rfl]
    obtain ⟨sch, log', e⟩ := pair
    obtain ⟨sch', k1, k2, k3⟩ := mix_loop hb hcl hcap hc j (i + 1) ⟨m.write v.arr (v.off + v.len + i) [c[i]], h, [⟨a, ka, .write v (i + 1)⟩, ⟨b, kb, .write v (i + 1)⟩], log'⟩ rfl
      (wf_write1 harr hp hw) (by omega)
    refine ⟨sch ++ sch', ?_⟩
    rw [torn_run_append, e]
    refine ⟨?_, k2, k3⟩
    rw [k1, List.drop_eq_getElem_cons hic]
    exact write_cons m v.arr (v.off + v.len + i) _ _ harr (by have := hw.cap; simp at this ⊢; omega)

/-- C118 is violated (a script is not the base and whole calls): with spare capacity, two goroutines that append byte strings `a` and `b` of the same length can leave every mixture `c` of the two, each byte chosen
freely from the one or the other. -/
theorem C118_torn (m : Mem) (v : Hdr) (w : v.WF m) (op op' : ScriptAppend) (a b c : Bytes) (ha : op.bytes = .ok a) (hb : op'.bytes = .ok b) (hl : b.length = a.length) (hcl : c.length = a.length)
    (hcap : v.len + a.length ≤ v.cap) (hc : ∀ (i : Nat) (x : UInt8), c[i]? = some x → a[i]? = some x ∨ b[i]? = some x) :
    ∃ sch, (run (start m v [op, op']) sch).finished ∧ (run (start m v [op, op']) sch).script = v.data m ++ c := by
  have e : ∃ log, run (start m v [op, op']) [0, 0, 1, 1] = ⟨m, v, [⟨a, op.grow, .write v 0⟩, ⟨b, op'.grow, .write v 0⟩], log⟩ := by
    refine ⟨(run (start m v [op, op']) [0, 0, 1, 1]).log, ?_⟩
    simp only [run, start, List.map_cons, List.map_nil, thread, ha, hb, step, pcStep, List.foldl_cons, List.foldl_nil, List.getElem?_cons_succ, List.getElem?_cons_zero, List.set_cons_succ, List.set_cons_zero,
      if_pos hcap, if_pos (show v.len + b.length ≤ v.cap by omega)]
  obtain ⟨log, e⟩ := e
  obtain ⟨sch, k1, k2, k3⟩ := mix_loop (ka := op.grow) (kb := op'.grow) hl hcl hcap hc a.length 0 ⟨m, v, [⟨a, op.grow, .write v 0⟩, ⟨b, op'.grow, .write v 0⟩], log⟩ rfl w (by omega)
  refine ⟨[0, 0, 1, 1] ++ sch, ?_, ?_⟩
  · rw [torn_run_append, e]
    intro x hx
    rw [k3] at hx
    simp at hx
    rcases hx with rfl | rfl <;> rfl
  · rw [torn_run_append, e]
    unfold Sys.script
    rw [k1, k2]
    have := Mem.append_data (grow := 0) (b := c) w
    rwa [Mem.append_fits (by omega)] at this

/-! ## Cases -/

/-- A script `OP_1` with room for nine more bytes. -/
def exRoom : Mem := [[0x51, 0, 0, 0, 0, 0, 0, 0, 0, 0]]
def exRoomHdr : Hdr := ⟨0, 0, 1, 10⟩

theorem exRoom_wf : exRoomHdr.WF exRoom := ⟨by decide, by decide, by decide⟩

/-- `AppendPushData([]byte{0xaa, 0xbb})` and `AppendPushData([]byte{0xcc, 0xdd})`. -/
def exPushes : List ScriptAppend := [.pushes [[0xaa, 0xbb]] 0, .pushes [[0xcc, 0xdd]] 0]

/-- By `C118_torn`: the two can leave a script whose last part, `aa dd`, nobody pushed. -/
example : ∃ sch, (run (start exRoom exRoomHdr exPushes) sch).finished ∧ (run (start exRoom exRoomHdr exPushes) sch).script = [0x51, 0x02, 0xaa, 0xdd] ∧
    DecodeParts (run (start exRoom exRoomHdr exPushes) sch).script = .ok [[0x51], [0xaa, 0xdd]] := by
  obtain ⟨sch, h1, h2⟩ := C118_torn exRoom exRoomHdr exRoom_wf (.pushes [[0xaa, 0xbb]] 0) (.pushes [[0xcc, 0xdd]] 0) [0x02, 0xaa, 0xbb] [0x02, 0xcc, 0xdd] [0x02, 0xaa, 0xdd] (by decide +kernel) (by decide +kernel)
    rfl rfl (by decide) (by
      intro i x h
      match i, h with
      | 0, h => exact .inl h
      | 1, h => exact .inl h
      | 2, h => exact .inr h
      | _ + 3, h => cases h)
  have e : exRoomHdr.data exRoom ++ [0x02, 0xaa, 0xdd] = [0x51, 0x02, 0xaa, 0xdd] := by decide +kernel
  rw [e] at h2
  refine ⟨sch, h1, h2, ?_⟩
  rw [show (run (start exRoom exRoomHdr exPushes) sch).script = _ from h2]
  decide +kernel

/-- A longer push torn by a shorter one, stored last by the longer: the script does not decode. -/
theorem C118_undecodable : ∃ (m : Mem) (v : Hdr) (ops : List ScriptAppend) (sch : List Nat), v.WF m ∧ (run (start m v ops) sch).finished ∧ (∃ parts, DecodeParts (v.data m) = .ok parts) ∧
    (∀ op ∈ ops, ∃ d parts, op.bytes = .ok d ∧ DecodeParts d = .ok parts) ∧ ∃ e, DecodeParts (run (start m v ops) sch).script = .err e := by
  refine ⟨exRoom, exRoomHdr, [.pushes [[1, 2, 3]] 0, .pushes [[9]] 0], [0, 0, 1, 1, 0, 0, 0, 0, 1, 1, 1, 1, 0, 0], exRoom_wf, ?_, ⟨[[0x51]], by decide +kernel⟩, ?_, ?_⟩
  · intro x hx
    have hk : ((run (start exRoom exRoomHdr [.pushes [[1, 2, 3]] 0, .pushes [[9]] 0]) [0, 0, 1, 1, 0, 0, 0, 0, 1, 1, 1, 1, 0, 0]).threads.map (·.pc)).all (· == .done) = true := by decide +kernel
    rw [List.all_eq_true] at hk
    simpa using hk x.pc (List.mem_map_of_mem hx)
  · intro op hop
    simp only [List.mem_cons, List.not_mem_nil, or_false] at hop
    rcases hop with rfl | rfl
    · exact ⟨[3, 1, 2, 3], [[1, 2, 3]], by decide +kernel, by decide +kernel⟩
    · exact ⟨[1, 9], [[9]], by decide +kernel, by decide +kernel⟩
  · have e : (run (start exRoom exRoomHdr [.pushes [[1, 2, 3]] 0, .pushes [[9]] 0]) [0, 0, 1, 1, 0, 0, 0, 0, 1, 1, 1, 1, 0, 0]).script = [0x51, 1, 9, 2, 3] := by decide +kernel
    rw [e]
    exact ⟨"Not enough data", by decide +kernel⟩

theorem exPushes_writes : Puts exPushes 0 [2, 0xaa, 0xbb] ∧ Puts exPushes 1 [2, 0xcc, 0xdd] := ⟨⟨_, rfl, by decide +kernel⟩, ⟨_, rfl, by decide +kernel⟩⟩

/-- One after the other, second first: both parts, whole; there is a race all the same (nothing orders the two goroutines). -/
example : (run (start exRoom exRoomHdr exPushes) ([1, 0].flatMap fun u => List.replicate 20 u)).script = [0x51, 2, 0xcc, 0xdd, 2, 0xaa, 0xbb] := by
  rw [C118_in_turn exRoom exRoomHdr exRoom_wf exPushes [1, 0] (by decide) (by decide) 20 (by decide +kernel)]
  decide +kernel

example (sch : List Nat) (hf : (run (start exRoom exRoomHdr exPushes) sch).finished) : BuildRace (run (start exRoom exRoomHdr exPushes) sch).log ∧
    ∃ ts off, Mixture exPushes [0x51] ts off (run (start exRoom exRoomHdr exPushes) sch).script ∧ ts ≠ [] :=
  ⟨(C118_races _ _ exRoom_wf _ _ hf).2 ⟨0, 1, _, _, by decide, exPushes_writes.1, exPushes_writes.2⟩, C118_finished exRoom exRoomHdr exRoom_wf exPushes sch hf 0 _ exPushes_writes.1⟩

/-- Schedules in which both have returned exist: any that gives each of them twenty steps. -/
example (sch : List Nat) (h0 : 20 ≤ sch.count 0) (h1 : 20 ≤ sch.count 1) : Done (run (start exRoom exRoomHdr exPushes) sch).threads 0 ∧ Done (run (start exRoom exRoomHdr exPushes) sch).threads 1 := by
  have hn : (exRoomHdr.data exRoom).length + 2 * (exPushes.flatMap added).length + 4 ≤ 20 := by decide +kernel
  exact ⟨C118_finishes _ _ exRoom_wf _ 0 _ rfl sch (Nat.le_trans hn h0), C118_finishes _ _ exRoom_wf _ 1 _ rfl sch (Nat.le_trans hn h1)⟩

/-- Three opcodes: the two that read the same header share one place. -/
example : let s := run (start exRoom exRoomHdr [.opcode 0x76 0, .opcode 0xa9 0, .opcode 0xac 0]) [0, 1, 0, 0, 0, 0, 1, 1, 1, 1, 2, 2, 2, 2, 2]
    s.threads.map (·.pc) = [.done, .done, .done] ∧ s.script = [0x51, 0xa9, 0xac] := by decide +kernel

example (sch : List Nat) : ∃ (ts : List Nat) (xs : Bytes), ts.Nodup ∧ List.Forall₂ (fun t x => Puts [.opcode 0x76 0, .opcode 0xa9 0, .opcode 0xac 0] t [x]) ts xs ∧
    (run (start exRoom exRoomHdr [.opcode 0x76 0, .opcode 0xa9 0, .opcode 0xac 0]) sch).script = [0x51] ++ xs := by
  refine C118_opcodes exRoom exRoomHdr exRoom_wf _ ?_ sch
  rintro t d ⟨op, h1, h2⟩
  have := List.mem_of_getElem? h1
  simp only [List.mem_cons, List.not_mem_nil, or_false] at this
  rcases this with rfl | rfl | rfl <;> cases h2 <;> rfl

/-- A call that fails next to one that succeeds: no race, at no moment. (`AppendPushDataArray` fails on data of 4 GiB and more; the hypothesis of `C118_race_free` speaks of the calls that succeed.) -/
example (op : ScriptAppend) (h : ∀ d, op.bytes ≠ .ok d) (sch : List Nat) : ¬ BuildRace (run (start exRoom exRoomHdr [op, .opcode 0x76 0]) sch).log := by
  refine C118_race_free exRoom exRoomHdr exRoom_wf _ ?_ sch
  have one : ∀ t d, Puts [op, .opcode 0x76 0] t d → t = 1 := by
    rintro t d ⟨o, h1, h2⟩
    match t, h1 with
    | 0, h1 => cases h1; exact absurd h2 (h d)
    | 1, h1 => rfl
    | _ + 2, h1 => cases h1
  exact fun t u d e a b => (one t d a).trans (one u e b).symm

end Verif.Props
