import Verif.Lemmas.Heap
import Verif.Spec.Memory
import Verif.Lemmas.TxCodec
import Verif.Props.Tx
/-!
# C64: scripts of parsed transactions share memory
-/
namespace Verif.Props
open Verif Spec

/-! ## The heap-level parser returns what the value-level parser returns -/

attribute [local irreducible] wrap64 intOfUint64 DecodeVarInt hexEncode ReverseBytes getUint32 getUint64

theorem decodeVarIntH_eq (m : Mem) (h : Hdr) : DecodeVarIntH m h = DecodeVarInt (h.view m) := rfl

theorem input_refines {m : Mem} {b : Hdr} (w : b.WF m) :
    Input.NewFromBytes (b.view m) = (HInput.NewFromBytes m b >>= fun r => Res.ok (r.1.read m, r.2)) := by
  unfold Input.NewFromBytes HInput.NewFromBytes
  simp only [w.len_view, w.view_sliceRange_bind, w.view_sliceFrom_bind, decodeVarIntH_eq]
  split_ifs with c
  · rfl
  · simp only [bind_assoc]
    refine bind_congr fun h => bind_congr fun is => bind_congr fun idx => bind_congr fun tail => bind_congr fun ls => ?_
    split_ifs with c2
    · rfl
    · simp only [bind_assoc, Res.pure_eq, Res.ok_bind]
      rfl

theorem output_refines {m : Mem} {b : Hdr} (w : b.WF m) :
    Output.NewFromBytes (b.view m) = (HOutput.NewFromBytes m b >>= fun r => Res.ok (r.1.read m, r.2)) := by
  unfold Output.NewFromBytes HOutput.NewFromBytes
  simp only [w.len_view, w.view_sliceRange_bind, w.view_sliceFrom_bind, decodeVarIntH_eq]
  split_ifs with c
  · rfl
  · simp only [bind_assoc]
    refine bind_congr fun h => bind_congr fun is => bind_congr fun tail => bind_congr fun ls => ?_
    split_ifs with c2
    · rfl
    · simp only [bind_assoc, Res.pure_eq, Res.ok_bind]
      rfl

theorem bind_congr_ok {α β : Type} {x : Res α} {f g : α → Res β} (h : ∀ a, x = .ok a → f a = g a) : (x >>= f) = (x >>= g) := by
  cases x with
  | ok a => exact h a rfl
  | err => rfl
  | panic => rfl

theorem readInputs_refines {m : Mem} {b : Hdr} (w : b.WF m) (n : Nat) : ∀ off : Int,
    Transaction.readInputs n (b.view m) off = (HTransaction.readInputs m n b off >>= fun r => Res.ok (r.1.map (HInput.read m), r.2)) := by
  induction n with
  | zero => intro off; rfl
  | succ n ih =>
    intro off
    unfold Transaction.readInputs HTransaction.readInputs
    rw [w.view_sliceFrom_bind, bind_assoc]
    refine bind_congr_ok fun s hs => ?_
    rw [input_refines (w.sliceFrom hs), bind_assoc, bind_assoc]
    refine bind_congr fun i => ?_
    rw [Res.ok_bind]
    dsimp only
    rw [ih, bind_assoc, bind_assoc]
    refine bind_congr fun r => ?_
    rfl

theorem readOutputs_refines {m : Mem} {b : Hdr} (w : b.WF m) (n : Nat) : ∀ off : Int,
    Transaction.readOutputs n (b.view m) off = (HTransaction.readOutputs m n b off >>= fun r => Res.ok (r.1.map (HOutput.read m), r.2)) := by
  induction n with
  | zero => intro off; rfl
  | succ n ih =>
    intro off
    unfold Transaction.readOutputs HTransaction.readOutputs
    rw [w.view_sliceFrom_bind, bind_assoc]
    refine bind_congr_ok fun s hs => ?_
    rw [output_refines (w.sliceFrom hs), bind_assoc, bind_assoc]
    refine bind_congr fun i => ?_
    rw [Res.ok_bind]
    dsimp only
    rw [ih, bind_assoc, bind_assoc]
    refine bind_congr fun r => ?_
    rfl

/-- C64 (model): parsing through memory and then reading the result is the value-level parser, for every slice of every memory. -/
theorem C64_parse_refines {m : Mem} {b : Hdr} (w : b.WF m) :
    Transaction.NewFromBytes (b.view m) = (HTransaction.NewFromBytes m b >>= fun tx => Res.ok (tx.read m)) := by
  unfold Transaction.NewFromBytes HTransaction.NewFromBytes
  simp only [w.len_view, w.view_sliceRange_bind, w.view_sliceFrom_bind, decodeVarIntH_eq]
  split_ifs with c
  · rfl
  · simp only [bind_assoc]
    refine bind_congr fun h => bind_congr fun ver => bind_congr fun s => bind_congr fun ls => ?_
    rw [readInputs_refines w, bind_assoc]
    refine bind_congr fun ri => ?_
    rw [Res.ok_bind]
    dsimp only
    refine bind_congr fun s' => bind_congr fun ls' => ?_
    rw [readOutputs_refines w, bind_assoc]
    refine bind_congr fun ro => ?_
    rw [Res.ok_bind]
    dsimp only
    refine bind_congr_ok fun lt hlt => ?_
    rw [(w.sliceFrom hlt).len_view]
    split_ifs with c2
    · rfl
    · rw [bind_assoc]
      rfl

/-! ## Where the scripts of a parsed transaction lie -/

/-- Script `s` lies in the buffer `b`, not before `lo` and ending before `hi` (positions from the start of `b`), and its capacity
extends to the end of the capacity of `b`. -/
structure Inside (b : Hdr) (lo hi : Nat) (s : Hdr) : Prop where
  arr : s.arr = b.arr
  lo : b.off + lo ≤ s.off
  hi : s.off + s.len ≤ b.off + hi
  cap : s.off + s.cap = b.off + b.cap
  len : s.len ≤ s.cap

/-- Scripts one after the other in the buffer, with at least nine bytes between two of them. -/
structure Laid (b : Hdr) (lo hi : Nat) (ss : List Hdr) : Prop where
  inside : ∀ s ∈ ss, Inside b lo hi s
  order : ss.Pairwise fun s t => s.off + s.len + 9 ≤ t.off

theorem sliceRangeH_ok {h h' : Hdr} {lo hi : Int} (e : h.sliceRange lo hi = .ok h') :
    ∃ a b : Nat, lo = a ∧ hi = b ∧ a ≤ b ∧ b ≤ h.cap ∧ h' = ⟨h.arr, h.off + a, b - a, h.cap - a⟩ := by
  unfold Hdr.sliceRange at e
  split_ifs at e with c
  · refine ⟨lo.toNat, hi.toNat, by omega, by omega, by omega, by omega, ?_⟩
    cases e; rfl

theorem sliceFromH_ok {h h' : Hdr} {lo : Int} (e : h.sliceFrom lo = .ok h') :
    ∃ a : Nat, lo = a ∧ a ≤ h.len ∧ h' = ⟨h.arr, h.off + a, h.len - a, h.cap - a⟩ := by
  unfold Hdr.sliceFrom at e
  split_ifs at e with c
  · refine ⟨lo.toNat, by omega, by omega, ?_⟩
    cases e; rfl

theorem size_pos {s : Slice} {l : UInt64} {size : Nat} (h : DecodeVarInt s = .ok (l, size)) : 1 ≤ size ∧ size ≤ 9 := by
  obtain ⟨d, sp⟩ := s
  exact ⟨(decodeVarInt_split h).1.1, (decodeVarInt_split h).1.2.1⟩

theorem input_layout {m : Mem} {b : Hdr} (hcap : b.cap < 2 ^ 62) (hl : b.len ≤ b.cap) {i : HInput} {n : Int} (h : HInput.NewFromBytes m b = .ok (i, n)) :
    ∃ k : Nat, n = k ∧ k ≤ b.len ∧ Inside b 37 (k - 4) i.UnlockingScript ∧ 41 ≤ k := by
  unfold HInput.NewFromBytes at h
  split_ifs at h with c
  obtain ⟨h0, -, h⟩ := Res.bind_eq_ok.mp h
  obtain ⟨is, -, h⟩ := Res.bind_eq_ok.mp h
  obtain ⟨idx, -, h⟩ := Res.bind_eq_ok.mp h
  obtain ⟨tail, -, h⟩ := Res.bind_eq_ok.mp h
  obtain ⟨⟨l, size⟩, hv, h⟩ := Res.bind_eq_ok.mp h
  have hs := size_pos hv
  dsimp only at h
  split_ifs at h with c2
  obtain ⟨scr, hscr, h⟩ := Res.bind_eq_ok.mp h
  obtain ⟨rest, -, h⟩ := Res.bind_eq_ok.mp h
  obtain ⟨seq, -, h⟩ := Res.bind_eq_ok.mp h
  cases h
  obtain ⟨p, q, hp, hq, hpq, hqc, rfl⟩ := sliceRangeH_ok hscr
  have e4 : wrap64 ((q : Int) + 4) = q + 4 := wrap64_eq (by omega) (by omega)
  rw [hq, e4] at c2 ⊢
  refine ⟨q + 4, by push_cast; rfl, by omega, ⟨rfl, ?_, ?_, ?_, ?_⟩, ?_⟩ <;> (try simp only) <;> omega

theorem output_layout {m : Mem} {b : Hdr} {o : HOutput} {n : Int} (h : HOutput.NewFromBytes m b = .ok (o, n)) :
    ∃ k : Nat, n = k ∧ k ≤ b.len ∧ Inside b 9 k o.LockingScript ∧ 9 ≤ k := by
  unfold HOutput.NewFromBytes at h
  split_ifs at h with c
  obtain ⟨h0, -, h⟩ := Res.bind_eq_ok.mp h
  obtain ⟨is, -, h⟩ := Res.bind_eq_ok.mp h
  obtain ⟨tail, -, h⟩ := Res.bind_eq_ok.mp h
  obtain ⟨⟨l, size⟩, hv, h⟩ := Res.bind_eq_ok.mp h
  have hs := size_pos hv
  dsimp only at h
  split_ifs at h with c2
  obtain ⟨scr, hscr, h⟩ := Res.bind_eq_ok.mp h
  cases h
  obtain ⟨p, q, hp, hq, hpq, hqc, rfl⟩ := sliceRangeH_ok hscr
  rw [hq] at c2 ⊢
  refine ⟨q, rfl, by omega, ⟨rfl, ?_, ?_, ?_, ?_⟩, ?_⟩ <;> (try simp only) <;> omega

theorem readInputs_layout {m : Mem} {b : Hdr} (hcap : b.cap < 2 ^ 62) (hl : b.len ≤ b.cap) (n : Nat) : ∀ (lo : Nat) (is : List HInput) (off : Int),
    HTransaction.readInputs m n b lo = .ok (is, off) →
    ∃ hi : Nat, off = hi ∧ lo ≤ hi ∧ Laid b (lo + 37) (hi - 4) (is.map (·.UnlockingScript)) := by
  induction n with
  | zero =>
    intro lo is off h
    cases h
    exact ⟨lo, rfl, le_refl _, ⟨by simp, by simp⟩⟩
  | succ n ih =>
    intro lo is off h
    unfold HTransaction.readInputs at h
    obtain ⟨s, hs, h⟩ := Res.bind_eq_ok.mp h
    obtain ⟨⟨i, size⟩, hi, h⟩ := Res.bind_eq_ok.mp h
    obtain ⟨⟨is', off'⟩, hr, h⟩ := Res.bind_eq_ok.mp h
    cases h
    obtain ⟨a, ha, hab, rfl⟩ := sliceFromH_ok hs
    have ha' : a = lo := by omega
    subst ha'
    obtain ⟨k, rfl, hk, hin, hk41⟩ := input_layout (by simp only; omega) (by simp only; omega) hi
    simp only at hk hr
    rw [wrap64_eq (by omega) (by omega)] at hr
    obtain ⟨hi', rfl, h1, h3⟩ := ih (a + k) _ _ (by push_cast; exact hr)
    refine ⟨hi', rfl, by omega, ⟨?_, ?_⟩⟩
    · intro s hs
      rw [List.map_cons, List.mem_cons] at hs
      rcases hs with rfl | hs
      · exact ⟨hin.arr, by have := hin.lo; simp only at this; omega, by have := hin.hi; simp only at this; omega, by have := hin.cap; simp only at this; omega, hin.len⟩
      · have := h3.inside s hs
        exact ⟨this.arr, by have := this.lo; omega, this.hi, this.cap, this.len⟩
    · rw [List.map_cons, List.pairwise_cons]
      refine ⟨fun t ht => ?_, h3.order⟩
      have h4 := (h3.inside t ht).lo
      have h5 := hin.hi
      simp only at h5
      omega

theorem readOutputs_layout {m : Mem} {b : Hdr} (hcap : b.cap < 2 ^ 62) (hl : b.len ≤ b.cap) (n : Nat) : ∀ (lo : Nat) (os : List HOutput) (off : Int),
    HTransaction.readOutputs m n b lo = .ok (os, off) →
    ∃ hi : Nat, off = hi ∧ lo ≤ hi ∧ Laid b (lo + 9) hi (os.map (·.LockingScript)) := by
  induction n with
  | zero =>
    intro lo is off h
    cases h
    exact ⟨lo, rfl, le_refl _, ⟨by simp, by simp⟩⟩
  | succ n ih =>
    intro lo is off h
    unfold HTransaction.readOutputs at h
    obtain ⟨s, hs, h⟩ := Res.bind_eq_ok.mp h
    obtain ⟨⟨i, size⟩, hi, h⟩ := Res.bind_eq_ok.mp h
    obtain ⟨⟨is', off'⟩, hr, h⟩ := Res.bind_eq_ok.mp h
    cases h
    obtain ⟨a, ha, hab, rfl⟩ := sliceFromH_ok hs
    have ha' : a = lo := by omega
    subst ha'
    obtain ⟨k, rfl, hk, hin, hk41⟩ := output_layout hi
    simp only at hk hr
    rw [wrap64_eq (by omega) (by omega)] at hr
    obtain ⟨hi', rfl, h1, h3⟩ := ih (a + k) _ _ (by push_cast; exact hr)
    refine ⟨hi', rfl, by omega, ⟨?_, ?_⟩⟩
    · intro s hs
      rw [List.map_cons, List.mem_cons] at hs
      rcases hs with rfl | hs
      · exact ⟨hin.arr, by have := hin.lo; simp only at this; omega, by have := hin.hi; simp only at this; omega, by have := hin.cap; simp only at this; omega, hin.len⟩
      · have := h3.inside s hs
        exact ⟨this.arr, by have := this.lo; omega, this.hi, this.cap, this.len⟩
    · rw [List.map_cons, List.pairwise_cons]
      refine ⟨fun t ht => ?_, h3.order⟩
      have h4 := (h3.inside t ht).lo
      have h5 := hin.hi
      simp only at h5
      omega

/-- The scripts of a parsed transaction lie in the caller's buffer, in order, at least nine bytes apart, at least four bytes before its end,
each with capacity up to the end of the buffer's capacity. -/
theorem tx_layout {m : Mem} {b : Hdr} (w : b.WF m) (hcap : b.cap < 2 ^ 62) {tx : HTransaction} (h : HTransaction.NewFromBytes m b = .ok tx) :
    Laid b 15 (b.len - 4) tx.scripts := by
  have hl := w.len
  unfold HTransaction.NewFromBytes at h
  split_ifs at h with c
  obtain ⟨h0, -, h⟩ := Res.bind_eq_ok.mp h
  obtain ⟨ver, -, h⟩ := Res.bind_eq_ok.mp h
  obtain ⟨s, hs, h⟩ := Res.bind_eq_ok.mp h
  obtain ⟨⟨l, size⟩, hv, h⟩ := Res.bind_eq_ok.mp h
  have hsz := size_pos hv
  dsimp only at h
  obtain ⟨⟨is, off⟩, hri, h⟩ := Res.bind_eq_ok.mp h
  obtain ⟨s', hs', h⟩ := Res.bind_eq_ok.mp h
  obtain ⟨⟨l', size'⟩, hv', h⟩ := Res.bind_eq_ok.mp h
  have hsz' := size_pos hv'
  dsimp only at h
  obtain ⟨⟨os, off'⟩, hro, h⟩ := Res.bind_eq_ok.mp h
  dsimp only at h
  obtain ⟨nlt, hn, h⟩ := Res.bind_eq_ok.mp h
  split_ifs at h with c2
  obtain ⟨lt, -, h⟩ := Res.bind_eq_ok.mp h
  cases h
  rw [wrap64_eq (by omega) (by omega)] at hri
  obtain ⟨hi, rfl, h1, h3⟩ := readInputs_layout hcap hl l.toNat (4 + size) is off (by push_cast; exact hri)
  obtain ⟨a, ha, hab, rfl⟩ := sliceFromH_ok hs'
  have ha' : a = hi := by omega
  subst ha'
  rw [wrap64_eq (by omega) (by omega)] at hro
  obtain ⟨hi', rfl, h1', h3'⟩ := readOutputs_layout hcap hl l'.toNat (a + size') os off' (by push_cast; exact hro)
  obtain ⟨a', ha', hab', rfl⟩ := sliceFromH_ok hn
  have : a' = hi' := by omega
  subst this
  simp only [ne_eq, not_not] at c2
  refine ⟨?_, ?_⟩
  · intro t ht
    rcases List.mem_append.mp ht with ht | ht
    · have := h3.inside t ht
      exact ⟨this.arr, by have := this.lo; omega, by have := this.hi; omega, this.cap, this.len⟩
    · have := h3'.inside t ht
      exact ⟨this.arr, by have := this.lo; omega, by have := this.hi; omega, this.cap, this.len⟩
  · unfold HTransaction.scripts
    rw [List.pairwise_append]
    refine ⟨h3.order, h3'.order, fun s hs t ht => ?_⟩
    have := (h3.inside s hs).hi
    have := (h3.inside s hs).lo
    have := (h3'.inside t ht).lo
    omega


/-! ## Effect of an append on the scripts of a parsed transaction -/

/-- A window at or after the written position: the written bytes that fall into it, then the rest of the old window. -/
theorem window_overwritten {m : Mem} {a pos lo n : Nat} {p : Bytes} (ha : a < m.length) (hb : pos + p.length ≤ (m.bytes a).length)
    (hlo : pos ≤ lo) (hn : lo + n ≤ (m.bytes a).length) : (((m.write a pos p).bytes a).drop lo).take n =
      (p.drop (lo - pos)).take n ++ (((m.bytes a).drop lo).take n).drop (p.length - (lo - pos)) := by
  rw [Mem.bytes_write_eq ha]
  apply List.ext_getElem?
  intro i
  simp only [List.getElem?_take, List.getElem?_drop, List.getElem?_append, List.length_take, List.length_drop, List.length_append]
  split_ifs <;> first | rfl | omega | (congr 1; omega)

theorem Laid.wf {m : Mem} {b : Hdr} (w : b.WF m) {lo hi : Nat} {ss : List Hdr} (h : Laid b lo hi ss) {s : Hdr} (hs : s ∈ ss) : s.WF m := by
  have h1 := h.inside s hs
  have h2 := w.arr
  have h3 := w.cap
  rw [← h1.arr] at h2 h3
  exact ⟨h2, h1.len, by rw [h1.cap]; exact h3⟩

theorem Laid.gap {b : Hdr} {lo hi : Nat} {ss : List Hdr} (h : Laid b lo hi ss) {t u : Nat} {s v : Hdr} (hs : ss[t]? = some s) (hv : ss[u]? = some v)
    (htu : t < u) : s.off + s.len + 9 ≤ v.off := by
  obtain ⟨ht, rfl⟩ := List.getElem?_eq_some_iff.mp hs
  obtain ⟨hu, rfl⟩ := List.getElem?_eq_some_iff.mp hv
  exact List.pairwise_iff_getElem.mp h.order t u ht hu htu

/-- C64: the exact effect of one append to script `s`, number `t`, of a parsed transaction, on that script and on every other script `v`, number `u`.
If the new bytes do not fit into the buffer behind `s`, nothing else changes. If they fit, scripts before `s` do not change, and of
a later script those bytes are replaced that lie under the appended bytes. -/
theorem C64_append_exact {m : Mem} {b : Hdr} (w : b.WF m) (hcap : b.cap < 2 ^ 62) {tx : HTransaction} (h : HTransaction.NewFromBytes m b = .ok tx)
    (t : Nat) (s : Hdr) (hs : tx.scripts[t]? = some s) (op : ScriptAppend) (p : Bytes) (hp : op.bytes = .ok p) :
    (op.run m s).2.data (op.run m s).1 = s.data m ++ p ∧
    (∀ u v, u ≠ t → tx.scripts[u]? = some v → s.cap < s.len + p.length → v.data (op.run m s).1 = v.data m) ∧
    (∀ u v, u < t → tx.scripts[u]? = some v → v.data (op.run m s).1 = v.data m) ∧
    (∀ u v, t < u → tx.scripts[u]? = some v → s.len + p.length ≤ s.cap →
      v.data (op.run m s).1 = (p.drop (v.off - (s.off + s.len))).take v.len ++ (v.data m).drop (p.length - (v.off - (s.off + s.len)))) := by
  have L := tx_layout w hcap h
  have ws : s.WF m := L.wf w (List.mem_of_getElem? hs)
  have hr : op.run m s = m.append op.grow s p := by unfold ScriptAppend.run; rw [hp]
  rw [hr]
  refine ⟨Mem.append_data ws, ?_, ?_, ?_⟩
  · intro u v _ hv hfit
    have wv : v.WF m := L.wf w (List.mem_of_getElem? hv)
    rw [Mem.append_grows (by omega)]
    exact Hdr.data_congr (Mem.fresh_old wv.arr)
  · intro u v hu hv
    have wv : v.WF m := L.wf w (List.mem_of_getElem? hv)
    have := L.gap hv hs hu
    exact Mem.append_window ws wv.arr (.inr (.inl (by omega)))
  · intro u v hu hv hfit
    have wv : v.WF m := L.wf w (List.mem_of_getElem? hv)
    have hg := L.gap hs hv hu
    have e : v.arr = s.arr := (L.inside v (List.mem_of_getElem? hv)).arr.trans (L.inside s (List.mem_of_getElem? hs)).arr.symm
    rw [Mem.append_fits hfit]
    simp only [Hdr.data, Hdr.view]
    have h1 := ws.cap
    have h2 := wv.cap
    have h3 := wv.len
    rw [e] at h2 ⊢
    exact window_overwritten ws.arr (by omega) (by omega) (by omega)

/-- C64: appends of at most nine bytes (an opcode, a push of up to eight bytes) and appends to the last script never change another script. -/
theorem C64_small_or_last {m : Mem} {b : Hdr} (w : b.WF m) (hcap : b.cap < 2 ^ 62) {tx : HTransaction} (h : HTransaction.NewFromBytes m b = .ok tx)
    (t : Nat) (s : Hdr) (hs : tx.scripts[t]? = some s) (op : ScriptAppend) (p : Bytes) (hp : op.bytes = .ok p)
    (hc : p.length ≤ 9 ∨ t + 1 = tx.scripts.length) (u : Nat) (v : Hdr) (hu : u ≠ t) (hv : tx.scripts[u]? = some v) :
    v.data (op.run m s).1 = v.data m := by
  obtain ⟨-, h1, h2, h3⟩ := C64_append_exact w hcap h t s hs op p hp
  have L := tx_layout w hcap h
  rcases Nat.lt_or_gt_of_ne hu with hlt | hgt
  · exact h2 u v hlt hv
  · by_cases hfit : s.len + p.length ≤ s.cap
    · rcases hc with hc | hc
      · rw [h3 u v hgt hv hfit]
        have hg := L.gap hs hv hgt
        rw [List.drop_eq_nil_of_le (by omega), Nat.sub_eq_zero_of_le (by omega)]
        simp
      · exfalso
        obtain ⟨hul, -⟩ := List.getElem?_eq_some_iff.mp hv
        omega
    · exact h1 u v hu hv (by omega)

theorem ScriptAppend.run_wf {op : ScriptAppend} {m : Mem} {s : Hdr} (w : s.WF m) : (op.run m s).2.WF (op.run m s).1 := by
  unfold ScriptAppend.run
  split
  · exact Mem.append_wf w
  · exact w

/-- Writing at or behind `s`'s length, or elsewhere. -/
def Behind (u v : Hdr) : Prop := v.arr ≠ u.arr ∨ u.off + u.len ≤ v.off + v.len

theorem ScriptAppend.run_other {op : ScriptAppend} {m : Mem} {s v : Hdr} (ws : s.WF m) (wv : v.WF m) (h : Behind v s) :
    v.data (op.run m s).1 = v.data m ∧ v.WF (op.run m s).1 := by
  unfold ScriptAppend.run
  split
  · refine ⟨Mem.append_window ws wv.arr ?_, wv.mono Mem.append_length (Mem.append_size ws wv.arr)⟩
    rcases h with h | h
    · exact .inl h.symm
    · exact .inr (.inl h)
  · exact ⟨rfl, wv⟩

theorem ScriptAppend.run_wf_other {op : ScriptAppend} {m : Mem} {s v : Hdr} (ws : s.WF m) (wv : v.WF m) : v.WF (op.run m s).1 := by
  unfold ScriptAppend.run
  split
  · exact wv.mono Mem.append_length (Mem.append_size ws wv.arr)
  · exact wv

theorem ScriptAppend.run_behind {op : ScriptAppend} {m : Mem} {s v : Hdr} (wv : v.WF m) (h : Behind v s) : Behind v (op.run m s).2 := by
  unfold ScriptAppend.run
  split
  · unfold Mem.append
    split_ifs
    · rcases h with h | h
      · exact .inl h
      · exact .inr (by simp only; omega)
    · left
      have := wv.arr
      simp only [Mem.fresh]; omega
  · exact h

theorem history_before {m : Mem} {ss : List Hdr} (hw : ∀ s ∈ ss, s.WF m) {u : Nat} {v : Hdr} (hv : ss[u]? = some v)
    (hb : ∀ t s, u < t → ss[t]? = some s → Behind v s) (calls : List (Nat × ScriptAppend)) (hc : ∀ c ∈ calls, u < c.1) :
    (runAll m ss calls).2[u]? = some v ∧ v.data (runAll m ss calls).1 = v.data m := by
  induction calls generalizing m ss with
  | nil => exact ⟨hv, rfl⟩
  | cons c calls ih =>
    obtain ⟨t, op⟩ := c
    have hut : u < t := hc (t, op) (by simp)
    have hc' : ∀ c ∈ calls, u < c.1 := fun c h => hc c (by simp [h])
    simp only [runAll, runAt]
    cases hst : ss[t]? with
    | none => exact ih hw hv hb hc'
    | some s =>
      have ws : s.WF m := hw s (List.mem_of_getElem? hst)
      have wv : v.WF m := hw v (List.mem_of_getElem? hv)
      have hvs := hb t s hut hst
      obtain ⟨e1, e2⟩ := ScriptAppend.run_other (op := op) ws wv hvs
      have := ih (m := (op.run m s).1) (ss := ss.set t (op.run m s).2) ?_ ?_ ?_ hc'
      · exact ⟨this.1, this.2.trans e1⟩
      · intro s' hs'
        rcases List.mem_or_eq_of_mem_set hs' with h | rfl
        · exact ScriptAppend.run_wf_other ws (hw s' h)
        · exact ScriptAppend.run_wf ws
      · rw [List.getElem?_set_ne (by omega)]; exact hv
      · intro t' s' ht' hs'
        by_cases e : t' = t
        · subst e
          obtain ⟨hl, -⟩ := List.getElem?_eq_some_iff.mp hst
          rw [List.getElem?_set_self hl] at hs'
          cases hs'
          exact ScriptAppend.run_behind wv hvs
        · rw [List.getElem?_set_ne (by omega)] at hs'
          exact hb t' s' ht' hs'

/-- C64: whatever calls append to later scripts of a parsed transaction, in any number and order, an earlier script keeps its contents. -/
theorem C64_earlier_unchanged {m : Mem} {b : Hdr} (w : b.WF m) (hcap : b.cap < 2 ^ 62) {tx : HTransaction} (h : HTransaction.NewFromBytes m b = .ok tx)
    (u : Nat) (v : Hdr) (hv : tx.scripts[u]? = some v) (calls : List (Nat × ScriptAppend)) (hc : ∀ c ∈ calls, u < c.1) :
    (runAll m tx.scripts calls).2[u]? = some v ∧ v.data (runAll m tx.scripts calls).1 = v.data m := by
  have L := tx_layout w hcap h
  refine history_before (fun s hs => L.wf w hs) hv (fun t s ht hs => .inr ?_) calls hc
  have := L.gap hv hs ht
  omega

/-! ## Scripts that were allocated separately -/

/-- Usable slices in pairwise different arrays, all numbered from `n` on. -/
structure Separate (n : Nat) (m : Mem) (ss : List Hdr) : Prop where
  wf : ∀ s ∈ ss, s.WF m
  new : ∀ s ∈ ss, n ≤ s.arr
  disj : ss.Pairwise fun s t => s.arr ≠ t.arr

theorem separate_run {n : Nat} {m : Mem} {ss : List Hdr} (S : Separate n m ss) (hn : n ≤ m.length) (c : ScriptCall) :
    Separate n (c.run m ss).1 (c.run m ss).2 ∧ n ≤ (c.run m ss).1.length ∧ (∀ a < n, (c.run m ss).1.bytes a = m.bytes a) ∧
    ∀ rest, callsValue ((c.run m ss).2.map (Hdr.data (c.run m ss).1)) rest = callsValue (ss.map (Hdr.data m)) (c :: rest) := by
  cases c with
  | make v spare =>
    simp only [ScriptCall.run, callsValue]
    refine ⟨⟨?_, ?_, ?_⟩, ?_, ?_, ?_⟩
    · intro s hs
      rcases List.mem_append.mp hs with h | h
      · exact (S.wf s h).mono (by simp [Mem.fresh, Mem.alloc]) (by rw [Mem.fresh_old (S.wf s h).arr])
      · rw [List.mem_singleton] at h; subst h; exact Mem.fresh_wf _ _ _
    · intro s hs
      rcases List.mem_append.mp hs with h | h
      · exact S.new s h
      · rw [List.mem_singleton] at h; subst h; simpa [Mem.fresh] using hn
    · rw [List.pairwise_append]
      refine ⟨S.disj, by simp, fun s hs t ht => ?_⟩
      rw [List.mem_singleton] at ht; subst ht
      have := (S.wf s hs).arr
      simp only [Mem.fresh]; omega
    · simp [Mem.fresh, Mem.alloc]; omega
    · intro a ha; exact Mem.fresh_old (by omega)
    · intro rest
      rw [List.map_append, List.map_singleton, Mem.fresh_data]
      congr 2
      exact List.map_congr_left fun s hs => Hdr.data_congr (Mem.fresh_old (S.wf s hs).arr)
  | append t op =>
    simp only [ScriptCall.run, runAt]
    cases hst : ss[t]? with
    | none =>
      refine ⟨S, hn, fun _ _ => rfl, fun rest => ?_⟩
      cases op <;> simp [callsValue, hst]
    | some s =>
      obtain ⟨hl, hst'⟩ := List.getElem?_eq_some_iff.mp hst
      have hmem : s ∈ ss := List.mem_of_getElem? hst
      have ws := S.wf s hmem
      dsimp only
      have harr : (op.run m s).2.arr = s.arr ∨ (op.run m s).2.arr = m.length := by
        unfold ScriptAppend.run; split
        · unfold Mem.append; split_ifs
          · exact .inl rfl
          · exact .inr rfl
        · exact .inl rfl
      have hother : ∀ v : Hdr, v.WF m → v.arr ≠ s.arr → v.data (op.run m s).1 = v.data m := fun v wv hne =>
        (ScriptAppend.run_other ws wv (.inl (Ne.symm hne))).1
      refine ⟨⟨?_, ?_, ?_⟩, ?_, ?_, ?_⟩
      · intro s' hs'
        rcases List.mem_or_eq_of_mem_set hs' with h | rfl
        · exact ScriptAppend.run_wf_other ws (S.wf s' h)
        · exact ScriptAppend.run_wf ws
      · intro s' hs'
        rcases List.mem_or_eq_of_mem_set hs' with h | rfl
        · exact S.new s' h
        · have := S.new s hmem
          rcases harr with e | e <;> omega
      · rw [List.pairwise_iff_getElem]
        intro i j hi hj hij
        rw [List.length_set] at hi hj
        have hp := List.pairwise_iff_getElem.mp S.disj
        rw [List.getElem_set, List.getElem_set]
        have a1 := (S.wf _ (List.getElem_mem hi)).arr
        have a2 := (S.wf _ (List.getElem_mem hj)).arr
        split_ifs with e1 e2 e2
        · omega
        · subst e1
          have := hp t j hi hj hij
          rw [hst'] at this
          rcases harr with e | e <;> rw [e]
          · exact this
          · omega
        · subst e2
          have := hp i t hi hj hij
          rw [hst'] at this
          rcases harr with e | e <;> rw [e]
          · exact this
          · omega
        · exact hp i j hi hj hij
      · unfold ScriptAppend.run; split
        · exact le_trans hn Mem.append_length
        · exact hn
      · intro a ha
        have hne : a ≠ s.arr := by have := S.new s hmem; omega
        unfold ScriptAppend.run; split
        · unfold Mem.append; split_ifs
          · exact Mem.bytes_write_ne hne
          · exact Mem.fresh_old (by omega)
        · rfl
      · intro rest
        have hmap : ((ss.set t (op.run m s).2).map (Hdr.data (op.run m s).1)) = (ss.map (Hdr.data m)).set t ((op.run m s).2.data (op.run m s).1) := by
          apply List.ext_getElem
          · simp
          · intro i h1 h2
            simp only [List.length_map, List.length_set] at h1 h2
            rw [List.getElem_map, List.getElem_set, List.getElem_set]
            split_ifs with e
            · rfl
            · rw [List.getElem_map]
              apply hother _ (S.wf _ (List.getElem_mem h1))
              have hp := List.pairwise_iff_getElem.mp S.disj
              rcases Nat.lt_or_gt_of_ne e with hlt | hgt
              · have := hp t i hl h1 hlt
                rw [hst'] at this
                exact Ne.symm this
              · have := hp i t h1 hl hgt
                rw [hst'] at this
                exact this
        rw [hmap]
        have hg : (ss.map (Hdr.data m))[t]? = some (s.data m) := by rw [List.getElem?_map, hst]; rfl
        cases op with
        | opcode o g =>
          simp only [callsValue, hg]
          congr 2
          exact Mem.append_data ws
        | pushes d g =>
          simp only [callsValue, hg]
          congr 2
          simp only [AppendPushDataArray, ScriptAppend.run, ScriptAppend.bytes]
          cases EncodeParts d with
          | ok p => exact Mem.append_data ws
          | err _ => rfl
          | panic => rfl

/-- C64: scripts that were created by allocating calls (not by parsing) are independent: after every history of creations and appends each script
holds exactly what its own calls put there, and no memory that existed before is changed. -/
theorem C64_created_independent (m : Mem) (calls : List ScriptCall) :
    (runCalls m [] calls).2.map (Hdr.data (runCalls m [] calls).1) = callsValue [] calls ∧
    ∀ a < m.length, (runCalls m [] calls).1.bytes a = m.bytes a := by
  have key : ∀ (calls : List ScriptCall) (n : Nat) (m : Mem) (ss : List Hdr), Separate n m ss → n ≤ m.length →
      (runCalls m ss calls).2.map (Hdr.data (runCalls m ss calls).1) = callsValue (ss.map (Hdr.data m)) calls ∧
      ∀ a < n, (runCalls m ss calls).1.bytes a = m.bytes a := by
    intro calls
    induction calls with
    | nil => intro n m ss S hn; exact ⟨rfl, fun _ _ => rfl⟩
    | cons c calls ih =>
      intro n m ss S hn
      obtain ⟨S', hn', ho, hv⟩ := separate_run S hn c
      obtain ⟨h1, h2⟩ := ih n _ _ S' hn'
      simp only [runCalls]
      exact ⟨h1.trans (hv calls), fun a ha => (h2 a ha).trans (ho a ha)⟩
  exact key calls m.length m [] ⟨by simp, by simp, List.Pairwise.nil⟩ (le_refl _)

/-! ## The code violates the property -/

/-- A transaction without inputs and with two outputs, locking scripts 51 and 52. -/
def twoOutputs : Bytes :=
  [1, 0, 0, 0, 0, 2] ++ [1, 0, 0, 0, 0, 0, 0, 0, 1, 0x51] ++ [2, 0, 0, 0, 0, 0, 0, 0, 1, 0x52] ++ [0, 0, 0, 0]

/-- Memory holding just that buffer, and the slice of it. -/
def twoMem : Mem := [twoOutputs]
/-- see `twoMem` -/
def twoHdr : Hdr := ⟨0, 0, 30, 30⟩
/-- The two scripts as slices. -/
def twoTx : HTransaction := ⟨1, [], [⟨1, ⟨0, 15, 1, 15⟩⟩, ⟨2, ⟨0, 25, 1, 5⟩⟩], 0⟩
/-- `AppendPushData` of ten bytes 0xaa. -/
def tenBytes : ScriptAppend := .pushes [List.replicate 10 0xaa] 0

/-- C64, negation: appending a ten-byte push to the first output script of a parsed transaction changes the second output's script from 52 to aa. -/
theorem C64_violation : twoHdr.WF twoMem ∧ HTransaction.NewFromBytes twoMem twoHdr = .ok twoTx ∧
    (runAt twoMem twoTx.scripts 0 tenBytes).2.map (Hdr.data (runAt twoMem twoTx.scripts 0 tenBytes).1) =
      [[0x51, 10] ++ List.replicate 10 0xaa, [0xaa]] ∧
    twoTx.scripts.map (Hdr.data twoMem) = [[0x51], [0x52]] := by
  refine ⟨⟨?_, ?_, ?_⟩, ?_, ?_, ?_⟩ <;> decide +kernel

/-- The hypotheses of the theorems above are met by this transaction; the append of a push that does not fit and of an opcode change nothing else. -/
example : (runAt twoMem twoTx.scripts 0 (.pushes [List.replicate 20 0xaa] 7)).2.map (Hdr.data (runAt twoMem twoTx.scripts 0 (.pushes [List.replicate 20 0xaa] 7)).1) =
      [[0x51, 20] ++ List.replicate 20 0xaa, [0x52]] ∧
    (runAt twoMem twoTx.scripts 0 (.opcode 0xac 7)).2.map (Hdr.data (runAt twoMem twoTx.scripts 0 (.opcode 0xac 7)).1) = [[0x51, 0xac], [0x52]] := by
  decide +kernel

example : callsValue [] [.make [0x51] 30, .make [0x52] 0, .append 0 tenBytes] = [[0x51, 10] ++ List.replicate 10 0xaa, [0x52]] := by decide +kernel

/-! ## C69: the caller's buffer and the parsed transaction -/

/-- C69: if the caller overwrites the buffer after parsing (any bytes `d` of the same length), every script of the parsed transaction reads as the same
range of the new buffer, and all other fields stay. -/
theorem C69_buffer_shared {m : Mem} {b : Hdr} (w : b.WF m) (hcap : b.cap < 2 ^ 62) {tx : HTransaction} (h : HTransaction.NewFromBytes m b = .ok tx)
    (d : Bytes) (hd : d.length = b.len) : ∀ s ∈ tx.scripts, s.data (m.copy b d) = (d.drop (s.off - b.off)).take s.len ∧
      s.data m = ((b.data m).drop (s.off - b.off)).take s.len := by
  intro s hs
  have L := (tx_layout w hcap h).inside s hs
  have h1 := L.lo
  have h2 := L.hi
  have h3 := w.cap
  have h4 := w.len
  have hb10 : 10 ≤ b.len := by
    by_contra hc
    have : b.len < 10 := by omega
    simp [HTransaction.NewFromBytes, this] at h
  constructor
  · simp only [Hdr.data, Hdr.view, Mem.copy, L.arr]
    rw [Mem.bytes_write_eq w.arr, List.take_of_length_le (l := d) (by omega)]
    apply List.ext_getElem?
    intro i
    simp only [List.getElem?_take, List.getElem?_drop, List.getElem?_append, List.length_take, List.length_append]
    split_ifs <;> first | rfl | omega | (congr 1; omega)
  · simp only [Hdr.data, Hdr.view, L.arr]
    apply List.ext_getElem?
    intro i
    simp only [List.getElem?_take, List.getElem?_drop]
    split_ifs <;> first | rfl | omega | (congr 1; omega)

/-- C69: what the parser returned for the original bytes keeps every field that is not a script, whatever the caller writes into the buffer afterwards. -/
theorem C69_fields_kept {m : Mem} {b : Hdr} (w : b.WF m) {tx : HTransaction} (h : HTransaction.NewFromBytes m b = .ok tx) (d : Bytes) :
    ∃ old : Transaction, Transaction.NewFromBytes (b.view m) = .ok old ∧ ∃ now : Transaction, now = tx.read (m.copy b d) ∧
      now.Version = old.Version ∧ now.Locktime = old.Locktime ∧
      now.Inputs.map (fun i => (i.PreviousTxID, i.PreviousTxOutIndex, i.SequenceNumber)) = old.Inputs.map (fun i => (i.PreviousTxID, i.PreviousTxOutIndex, i.SequenceNumber)) ∧
      now.Outputs.map (·.Satoshis) = old.Outputs.map (·.Satoshis) := by
  refine ⟨tx.read m, ?_, _, rfl, rfl, rfl, ?_, ?_⟩
  · rw [C64_parse_refines w, h]; rfl
  · simp [HTransaction.read, HInput.read, Function.comp_def]
  · simp [HTransaction.read, HOutput.read, Function.comp_def]

/-- The hypotheses are met by a concrete buffer, and the scripts do change. -/
example : twoTx.scripts.map (Hdr.data (twoMem.copy twoHdr (List.replicate 30 7))) = [[7], [7]] := by decide +kernel

end Verif.Props
