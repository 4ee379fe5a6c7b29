import Verif.Model.Heap
import Verif.Lemmas.Basic
/-!
# Facts about memory, slices and append
-/
namespace Verif

theorem Mem.bytes_alloc_lt {m : Mem} {b : Bytes} {a : Nat} (h : a < m.length) : (m.alloc b).bytes a = m.bytes a := by
  simp only [Mem.bytes, Mem.alloc, List.getD_eq_getElem?_getD]
  rw [List.getElem?_append_left h]

theorem Mem.bytes_alloc_new (m : Mem) (b : Bytes) : (m.alloc b).bytes m.length = b := by
  simp [Mem.bytes, Mem.alloc]

theorem Mem.length_alloc (m : Mem) (b : Bytes) : (m.alloc b).length = m.length + 1 := by simp [Mem.alloc]

theorem Mem.length_write (m : Mem) (a pos : Nat) (b : Bytes) : (m.write a pos b).length = m.length := by simp [Mem.write]

theorem Mem.bytes_write_ne {m : Mem} {a a' pos : Nat} {b : Bytes} (h : a' ≠ a) : (m.write a pos b).bytes a' = m.bytes a' := by
  simp only [Mem.bytes, Mem.write, List.getD_eq_getElem?_getD, List.getElem?_set]
  rw [if_neg (Ne.symm h)]

theorem Mem.bytes_write_eq {m : Mem} {a pos : Nat} {b : Bytes} (h : a < m.length) :
    (m.write a pos b).bytes a = (m.bytes a).take pos ++ b ++ (m.bytes a).drop (pos + b.length) := by
  unfold Mem.write
  conv_lhs => unfold Mem.bytes
  rw [List.getD_eq_getElem?_getD, List.getElem?_set, if_pos rfl, if_pos h, Option.getD_some]
  rfl

theorem Mem.length_bytes_write {m : Mem} {a a' pos : Nat} {b : Bytes} (h : pos + b.length ≤ (m.bytes a).length) (ha : a < m.length) :
    ((m.write a pos b).bytes a').length = (m.bytes a').length := by
  by_cases e : a' = a
  · subst e
    rw [Mem.bytes_write_eq ha]
    simp only [List.length_append, List.length_take, List.length_drop]
    omega
  · rw [Mem.bytes_write_ne e]

theorem Hdr.WF.len_view {m : Mem} {h : Hdr} (w : h.WF m) : (h.view m).len = h.len := by
  have := w.len; have := w.cap
  simp only [Hdr.view, Slice.len, List.length_take, List.length_drop]; omega

theorem Hdr.WF.len_data {m : Mem} {h : Hdr} (w : h.WF m) : (h.data m).length = h.len := w.len_view

theorem Hdr.WF.cap_view {m : Mem} {h : Hdr} (w : h.WF m) : (h.view m).cap = h.cap := by
  have := w.len; have := w.cap
  simp only [Hdr.view, Slice.cap, List.length_take, List.length_drop]; omega

theorem Hdr.view_all {m : Mem} {h : Hdr} (w : h.WF m) : (h.view m).data ++ (h.view m).spare = ((m.bytes h.arr).drop h.off).take h.cap := by
  have := w.len
  simp only [Hdr.view]
  conv_rhs => rw [show h.cap = h.len + (h.cap - h.len) by omega, List.take_add, List.drop_drop]

theorem Hdr.WF.sliceFrom {m : Mem} {h h' : Hdr} (w : h.WF m) {lo : Int} (e : h.sliceFrom lo = .ok h') : h'.WF m := by
  unfold Hdr.sliceFrom at e
  split_ifs at e with c
  · cases e
    have := w.len; have := w.cap
    exact ⟨w.arr, by simp only; omega, by simp only; omega⟩

theorem Hdr.WF.sliceRange {m : Mem} {h h' : Hdr} (w : h.WF m) {lo hi : Int} (e : h.sliceRange lo hi = .ok h') : h'.WF m := by
  unfold Hdr.sliceRange at e
  split_ifs at e with c
  · cases e
    have := w.len; have := w.cap
    exact ⟨w.arr, by simp only; omega, by simp only; omega⟩

/-- Slicing a header and then looking is looking and then slicing. -/
theorem Hdr.WF.view_sliceFrom {m : Mem} {h : Hdr} (w : h.WF m) (lo : Int) :
    (h.view m).sliceFrom lo = (h.sliceFrom lo >>= fun h' => Res.ok (h'.view m)) := by
  unfold Slice.sliceFrom Hdr.sliceFrom
  rw [w.len_view]
  split_ifs with c
  · rw [Res.ok_bind]
    have := w.len; have := w.cap
    congr 1
    simp only [Hdr.view]
    congr 1
    · rw [List.drop_take, List.drop_drop]
    · congr 1
      · omega
      · congr 1; omega
  · rfl

theorem Hdr.WF.view_sliceRange {m : Mem} {h : Hdr} (w : h.WF m) (lo hi : Int) :
    (h.view m).sliceRange lo hi = (h.sliceRange lo hi >>= fun h' => Res.ok (h'.view m)) := by
  unfold Slice.sliceRange Hdr.sliceRange
  rw [w.cap_view]
  split_ifs with c
  · rw [Res.ok_bind]
    have := w.len; have := w.cap
    dsimp only
    rw [Hdr.view_all w]
    simp only [Hdr.view]
    rw [Res.ok.injEq, Slice.mk.injEq]
    refine ⟨?_, ?_⟩
    · rw [List.take_take, List.drop_take, List.drop_drop]
      have e1 : min hi.toNat h.cap = hi.toNat := by omega
      rw [e1]
    · rw [List.drop_take, List.drop_drop]
      have e1 : h.cap - hi.toNat = h.cap - lo.toNat - (hi.toNat - lo.toNat) := by omega
      have e2 : h.off + hi.toNat = h.off + lo.toNat + (hi.toNat - lo.toNat) := by omega
      rw [e1, e2]
  · rfl

theorem Mem.fresh_wf (m : Mem) (b : Bytes) (n : Nat) : (m.fresh b n).2.WF (m.fresh b n).1 := by
  refine ⟨?_, ?_, ?_⟩
  · simp [Mem.fresh, Mem.alloc]
  · simp [Mem.fresh]
  · simp only [Mem.fresh]; rw [Mem.bytes_alloc_new]; simp

theorem Mem.fresh_data (m : Mem) (b : Bytes) (n : Nat) : (m.fresh b n).2.data (m.fresh b n).1 = b := by
  simp only [Mem.fresh, Hdr.data, Hdr.view]
  rw [Mem.bytes_alloc_new]; simp

theorem Mem.fresh_old {m : Mem} {b : Bytes} {n a : Nat} (h : a < m.length) : (m.fresh b n).1.bytes a = m.bytes a := Mem.bytes_alloc_lt h

theorem Hdr.data_congr {m m' : Mem} {h : Hdr} (e : m'.bytes h.arr = m.bytes h.arr) : h.data m' = h.data m := by
  simp [Hdr.data, Hdr.view, e]

theorem Hdr.view_congr {m m' : Mem} {h : Hdr} (e : m'.bytes h.arr = m.bytes h.arr) : h.view m' = h.view m := by
  simp [Hdr.view, e]

/-- A header stays usable as long as its array keeps its size. -/
theorem Hdr.WF.mono {m m' : Mem} {h : Hdr} (w : h.WF m) (hl : m.length ≤ m'.length) (e : (m'.bytes h.arr).length = (m.bytes h.arr).length) : h.WF m' :=
  ⟨lt_of_lt_of_le w.arr hl, w.len, by rw [e]; exact w.cap⟩

/-- Writing outside the window `[lo, hi)` of an array does not change the window. -/
theorem Mem.window_write {m : Mem} {a pos lo n : Nat} {b : Bytes} (ha : a < m.length) (hb : pos + b.length ≤ (m.bytes a).length)
    (h : lo + n ≤ pos ∨ pos + b.length ≤ lo) : (((m.write a pos b).bytes a).drop lo).take n = ((m.bytes a).drop lo).take n := by
  rw [Mem.bytes_write_eq ha]
  apply List.ext_getElem?
  intro i
  simp only [List.getElem?_take, List.getElem?_drop]
  split_ifs with hi
  · rcases h with h | h
    · rw [List.append_assoc, List.getElem?_append_left (by simp only [List.length_take]; omega), List.getElem?_take, if_pos (by omega)]
    · rw [List.getElem?_append_right (by simp only [List.length_append, List.length_take]; omega), List.getElem?_drop]
      congr 1
      simp only [List.length_append, List.length_take]; omega
  · rfl

/-- The in-place case of `append`. -/
theorem Mem.append_fits {grow : Nat} {m : Mem} {h : Hdr} {b : Bytes} (c : h.len + b.length ≤ h.cap) :
    m.append grow h b = (m.write h.arr (h.off + h.len) b, { h with len := h.len + b.length }) := by simp [Mem.append, c]

theorem Mem.append_grows {grow : Nat} {m : Mem} {h : Hdr} {b : Bytes} (c : ¬ h.len + b.length ≤ h.cap) :
    m.append grow h b = m.fresh (h.data m ++ b) grow := by simp [Mem.append, c]

theorem Mem.append_wf {grow : Nat} {m : Mem} {h : Hdr} {b : Bytes} (w : h.WF m) : (m.append grow h b).2.WF (m.append grow h b).1 := by
  by_cases c : h.len + b.length ≤ h.cap
  · rw [Mem.append_fits c]
    have := w.cap
    refine ⟨by simpa [Mem.length_write] using w.arr, c, ?_⟩
    dsimp only
    rw [Mem.length_bytes_write (by omega) w.arr]; exact w.cap
  · rw [Mem.append_grows c]; exact Mem.fresh_wf _ _ _

/-- `append` returns the old elements followed by the new ones. -/
theorem Mem.append_data {grow : Nat} {m : Mem} {h : Hdr} {b : Bytes} (w : h.WF m) :
    (m.append grow h b).2.data (m.append grow h b).1 = h.data m ++ b := by
  by_cases c : h.len + b.length ≤ h.cap
  · rw [Mem.append_fits c]
    have := w.cap
    simp only [Hdr.data, Hdr.view]
    rw [Mem.bytes_write_eq w.arr, List.append_assoc, List.drop_append, List.take_append]
    rw [List.drop_take]
    have h1 : h.off + h.len - h.off = h.len := by omega
    have h2 : h.off - (List.take (h.off + h.len) (m.bytes h.arr)).length = 0 := by simp only [List.length_take]; omega
    rw [h1, h2, List.drop_zero, List.take_append]
    have h3 : (List.take h.len (List.drop h.off (m.bytes h.arr))).length = h.len := by simp only [List.length_take, List.length_drop]; omega
    rw [h3]
    have h4 : h.len + b.length - h.len = b.length := by omega
    rw [h4]
    simp only [le_refl, List.take_of_length_le, Nat.sub_self, List.take_zero, List.append_nil]
    congr 1
    rw [List.take_of_length_le (by rw [h3]; omega)]
  · rw [Mem.append_grows c]; exact Mem.fresh_data _ _ _

theorem Mem.append_length {grow : Nat} {m : Mem} {h : Hdr} {b : Bytes} : m.length ≤ (m.append grow h b).1.length := by
  unfold Mem.append; split_ifs
  · simp [Mem.length_write]
  · simp [Mem.fresh, Mem.alloc]

theorem Mem.append_size {grow : Nat} {m : Mem} {h : Hdr} {b : Bytes} (w : h.WF m) {a : Nat} (ha : a < m.length) :
    ((m.append grow h b).1.bytes a).length = (m.bytes a).length := by
  by_cases c : h.len + b.length ≤ h.cap
  · rw [Mem.append_fits c]
    have := w.cap
    exact Mem.length_bytes_write (by omega) w.arr
  · rw [Mem.append_grows c, Mem.fresh_old ha]

/-- `append` leaves every window outside `[len, cap)` of its own slice alone. -/
theorem Mem.append_window {grow : Nat} {m : Mem} {h : Hdr} {b : Bytes} (w : h.WF m) {a lo n : Nat} (ha : a < m.length)
    (hsep : a ≠ h.arr ∨ lo + n ≤ h.off + h.len ∨ h.off + h.cap ≤ lo) :
    ((((m.append grow h b).1).bytes a).drop lo).take n = ((m.bytes a).drop lo).take n := by
  by_cases c : h.len + b.length ≤ h.cap
  · rw [Mem.append_fits c]
    have := w.cap
    by_cases e : a = h.arr
    · subst e
      exact Mem.window_write w.arr (by omega) (by rcases hsep with h | h | h; · exact absurd rfl h
                                                  · exact .inl (by omega)
                                                  · exact .inr (by omega))
    · dsimp only; rw [Mem.bytes_write_ne e]
  · rw [Mem.append_grows c, Mem.fresh_old ha]

end Verif

namespace Verif

theorem Hdr.WF.view_sliceFrom_bind {α : Type} {m : Mem} {h : Hdr} (w : h.WF m) (lo : Int) (f : Slice → Res α) :
    ((h.view m).sliceFrom lo >>= f) = (h.sliceFrom lo >>= fun h' => f (h'.view m)) := by
  rw [w.view_sliceFrom]; cases h.sliceFrom lo <;> rfl

theorem Hdr.WF.view_sliceRange_bind {α : Type} {m : Mem} {h : Hdr} (w : h.WF m) (lo hi : Int) (f : Slice → Res α) :
    ((h.view m).sliceRange lo hi >>= f) = (h.sliceRange lo hi >>= fun h' => f (h'.view m)) := by
  rw [w.view_sliceRange]; cases h.sliceRange lo hi <;> rfl

end Verif
