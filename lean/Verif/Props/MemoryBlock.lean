import Verif.Lemmas.Heap
import Verif.Props.Memory
import Verif.Props.Encryption
/-!
# C65, C62: what the block and crypto functions do to the memory of their arguments
-/
namespace Verif.Props
open Verif Spec

/-- `append` into a slice whose array is numbered `n` or more leaves all older arrays alone. -/
theorem append_new {grow n : Nat} {m : Mem} {h : Hdr} {p : Bytes} (hn : n ≤ h.arr) (hm : n ≤ m.length) :
    n ≤ (m.append grow h p).2.arr ∧ n ≤ (m.append grow h p).1.length ∧ ∀ a < n, (m.append grow h p).1.bytes a = m.bytes a := by
  refine ⟨?_, le_trans hm Mem.append_length, fun a ha => ?_⟩ <;> unfold Mem.append <;> split_ifs
  · exact hn
  · simpa [Mem.fresh] using hm
  · exact Mem.bytes_write_ne (by omega)
  · exact Mem.fresh_old (by omega)

theorem appendAll_spec (n : Nat) (args : List (Hdr × Nat)) : ∀ (m : Mem) (a : Hdr), a.WF m → n ≤ a.arr → n ≤ m.length → (∀ x ∈ args, x.1.arr < n) →
    (∀ k < n, (appendAllH m a args).1.bytes k = m.bytes k) ∧
    (appendAllH m a args).2.data (appendAllH m a args).1 = a.data m ++ args.flatMap fun x => x.1.data m := by
  induction args with
  | nil => intro m a w hn hm _; exact ⟨fun _ _ => rfl, by simp [appendAllH]⟩
  | cons x args ih =>
    intro m a w hn hm hx
    obtain ⟨x, grow⟩ := x
    obtain ⟨h1, h2, h3⟩ := append_new (grow := grow) (p := x.data m) hn hm
    obtain ⟨i1, i2⟩ := ih (m.append grow a (x.data m)).1 (m.append grow a (x.data m)).2 (Mem.append_wf w) h1 h2 (fun y hy => hx y (by simp [hy]))
    simp only [appendAllH]
    refine ⟨fun k hk => (i1 k hk).trans (h3 k hk), ?_⟩
    rw [i2, Mem.append_data w, List.flatMap_cons, List.append_assoc]
    congr 2
    exact List.flatMap_congr fun y hy => Hdr.data_congr (h3 _ (hx y (by simp [hy])))

/-- C65: `BuildBlockHeader` returns the value-level header and changes no memory that existed before the call, whatever the capacities of its
arguments and whatever they share. -/
theorem C65_header (m : Mem) (version : UInt32) (prev : Bytes) (root time bits nonce : Hdr) (grows : List Nat)
    (h1 : root.WF m) (h2 : time.WF m) (h3 : bits.WF m) (h4 : nonce.WF m) :
    let r := BuildBlockHeaderH m version prev root time bits nonce grows
    r.2.data r.1 = BuildBlockHeader version prev (root.data m) (time.data m) (bits.data m) (nonce.data m) ∧
    ∀ a < m.length, r.1.bytes a = m.bytes a := by
  intro r
  set mv := (m.fresh (putUint32 version) 0).1 with hmv
  set v := (m.fresh (putUint32 version) 0).2 with hv
  set mp := (mv.fresh (ReverseBytes (hexDecodeIgnore prev)) 0).1 with hmp
  set p := (mv.fresh (ReverseBytes (hexDecodeIgnore prev)) 0).2 with hp
  set ma := (mp.fresh [] 0).1 with hma
  set a := (mp.fresh [] 0).2 with ha
  have hr : r = appendAllH ma a ([v, p, root, time, bits, nonce].zip (grows ++ List.replicate 6 0)) := rfl
  have lv : mv.length = m.length + 1 := by simp [hmv, Mem.fresh, Mem.alloc]
  have lp : mp.length = m.length + 2 := by simp [hmp, Mem.fresh, Mem.alloc, lv]
  have la : ma.length = m.length + 3 := by simp [hma, Mem.fresh, Mem.alloc, lp]
  have av : v.arr = m.length := rfl
  have ap : p.arr = m.length + 1 := by simp [hp, Mem.fresh, lv]
  have aa : a.arr = m.length + 2 := by simp [ha, Mem.fresh, lp]
  have old : ∀ k < m.length, ma.bytes k = m.bytes k := fun k hk => by
    rw [hma, Mem.fresh_old (by omega), hmp, Mem.fresh_old (by omega), hmv, Mem.fresh_old hk]
  obtain ⟨q1, q2⟩ := appendAll_spec (m.length + 2) ([v, p, root, time, bits, nonce].zip (grows ++ List.replicate 6 0)) ma a
    (Mem.fresh_wf _ _ _) (by omega) (by omega) (by
      intro x hx
      have hx' := (List.of_mem_zip (a := x.1) (b := x.2) hx).1
      have := h1.arr; have := h2.arr; have := h3.arr; have := h4.arr
      simp only [List.mem_cons, List.not_mem_nil, or_false] at hx'
      rcases hx' with e | e | e | e | e | e <;> rw [e] <;> omega)
  rw [hr]
  refine ⟨?_, fun k hk => (q1 k (by omega)).trans (old k hk)⟩
  rw [q2]
  have e0 : a.data ma = [] := Mem.fresh_data _ _ _
  have ev : v.data ma = putUint32 version := by
    rw [Hdr.data_congr (m := mv) (by rw [av, hma, Mem.fresh_old (by omega), hmp, Mem.fresh_old (by omega)])]
    exact Mem.fresh_data _ _ _
  have ep : p.data ma = ReverseBytes (hexDecodeIgnore prev) := by
    rw [Hdr.data_congr (m := mp) (by rw [ap, hma, Mem.fresh_old (by omega)])]
    exact Mem.fresh_data _ _ _
  have hz : ∀ gs : List Nat, ∀ ds : List Hdr, ds.length ≤ gs.length → (ds.zip gs).flatMap (fun x => x.1.data ma) = ds.flatMap (Hdr.data ma) := by
    intro gs ds hl
    rw [List.flatMap_def, List.flatMap_def]
    have : (ds.zip gs).map (fun x => x.1.data ma) = ((ds.zip gs).map Prod.fst).map (Hdr.data ma) := by rw [List.map_map]; rfl
    rw [this, List.map_fst_zip hl]
  rw [hz _ _ (by simp)]
  simp only [List.flatMap_cons, List.flatMap_nil, e0, ev, ep, List.nil_append, List.append_nil, Hdr.data_congr (old _ h1.arr), Hdr.data_congr (old _ h2.arr),
    Hdr.data_congr (old _ h3.arr), Hdr.data_congr (old _ h4.arr), BuildBlockHeader, List.append_assoc]

/-- C65: `BuildCoinbase` returns the value-level coinbase and changes no memory that existed before the call. -/
theorem C65_coinbase (m : Mem) (c1 c2 : Hdr) (e1 e2 : Bytes) (grows : List Nat) (h1 : c1.WF m) (h2 : c2.WF m) :
    let r := BuildCoinbaseH m c1 c2 e1 e2 grows
    r.2.data r.1 = BuildCoinbase (c1.data m) (c2.data m) e1 e2 ∧ ∀ a < m.length, r.1.bytes a = m.bytes a := by
  intro r
  set mv := (m.fresh (hexDecodeIgnore e1) 0).1 with hmv
  set v := (m.fresh (hexDecodeIgnore e1) 0).2 with hv
  set mp := (mv.fresh (hexDecodeIgnore e2) 0).1 with hmp
  set p := (mv.fresh (hexDecodeIgnore e2) 0).2 with hp
  set ma := (mp.fresh [] 0).1 with hma
  set a := (mp.fresh [] 0).2 with ha
  have hr : r = appendAllH ma a ([c1, v, p, c2].zip (grows ++ List.replicate 4 0)) := rfl
  have lv : mv.length = m.length + 1 := by simp [hmv, Mem.fresh, Mem.alloc]
  have lp : mp.length = m.length + 2 := by simp [hmp, Mem.fresh, Mem.alloc, lv]
  have la : ma.length = m.length + 3 := by simp [hma, Mem.fresh, Mem.alloc, lp]
  have av : v.arr = m.length := rfl
  have ap : p.arr = m.length + 1 := by simp [hp, Mem.fresh, lv]
  have aa : a.arr = m.length + 2 := by simp [ha, Mem.fresh, lp]
  have old : ∀ k < m.length, ma.bytes k = m.bytes k := fun k hk => by
    rw [hma, Mem.fresh_old (by omega), hmp, Mem.fresh_old (by omega), hmv, Mem.fresh_old hk]
  obtain ⟨q1, q2⟩ := appendAll_spec (m.length + 2) ([c1, v, p, c2].zip (grows ++ List.replicate 4 0)) ma a
    (Mem.fresh_wf _ _ _) (by omega) (by omega) (by
      intro x hx
      have hx' := (List.of_mem_zip (a := x.1) (b := x.2) hx).1
      have := h1.arr; have := h2.arr
      simp only [List.mem_cons, List.not_mem_nil, or_false] at hx'
      rcases hx' with e | e | e | e <;> rw [e] <;> omega)
  rw [hr]
  refine ⟨?_, fun k hk => (q1 k (by omega)).trans (old k hk)⟩
  rw [q2]
  have e0 : a.data ma = [] := Mem.fresh_data _ _ _
  have ev : v.data ma = hexDecodeIgnore e1 := by
    rw [Hdr.data_congr (m := mv) (by rw [av, hma, Mem.fresh_old (by omega), hmp, Mem.fresh_old (by omega)])]
    exact Mem.fresh_data _ _ _
  have ep : p.data ma = hexDecodeIgnore e2 := by
    rw [Hdr.data_congr (m := mp) (by rw [ap, hma, Mem.fresh_old (by omega)])]
    exact Mem.fresh_data _ _ _
  have hz : ∀ gs : List Nat, ∀ ds : List Hdr, ds.length ≤ gs.length → (ds.zip gs).flatMap (fun x => x.1.data ma) = ds.flatMap (Hdr.data ma) := by
    intro gs ds hl
    rw [List.flatMap_def, List.flatMap_def]
    have : (ds.zip gs).map (fun x => x.1.data ma) = ((ds.zip gs).map Prod.fst).map (Hdr.data ma) := by rw [List.map_map]; rfl
    rw [this, List.map_fst_zip hl]
  rw [hz _ _ (by simp)]
  simp only [List.flatMap_cons, List.flatMap_nil, e0, ev, ep, List.nil_append, List.append_nil, Hdr.data_congr (old _ h1.arr), Hdr.data_congr (old _ h2.arr),
    BuildCoinbase, List.append_assoc]

/-! ## BuildMerkleRootFromCoinbase -/

theorem merkleLoop_new (H : HashFns) (n : Nat) (brs : List (Bytes × Nat)) : ∀ (m : Mem) (acc : Hdr), acc.WF m → n ≤ acc.arr → n ≤ m.length →
    (∀ k < n, (merkleRootLoopH H m acc brs).1.bytes k = m.bytes k) := by
  induction brs with
  | nil => intro m acc _ _ _ k _; rfl
  | cons br brs ih =>
    intro m acc w hn hm k hk
    obtain ⟨br, grow⟩ := br
    obtain ⟨h1, h2, h3⟩ := append_new (grow := grow) (p := hexDecodeIgnore br) hn hm
    simp only [merkleRootLoopH]
    rw [ih _ _ (Mem.fresh_wf _ _ _) (by simpa [Mem.fresh] using h2) (by simp [Mem.fresh, Mem.alloc]; omega) k hk, Mem.fresh_old (by omega), h3 k hk]

theorem merkleLoop_value (H : HashFns) (brs : List (Bytes × Nat)) : ∀ (m : Mem) (acc : Hdr), acc.WF m →
    (merkleRootLoopH H m acc brs).2.data (merkleRootLoopH H m acc brs).1 = BuildMerkleRootFromCoinbase H (acc.data m) (brs.map Prod.fst) := by
  induction brs with
  | nil => intro m acc _; rfl
  | cons br brs ih =>
    intro m acc w
    obtain ⟨br, grow⟩ := br
    simp only [merkleRootLoopH, List.map_cons]
    rw [ih _ _ (Mem.fresh_wf _ _ _), Mem.fresh_data, Mem.append_data w]
    rfl

/-- C65: `BuildMerkleRootFromCoinbase` returns the value-level root. Its effect on memory that existed before, exactly: the bytes of the first branch are
written into the array of `coinbaseHash` directly behind its elements if the capacity has room for them; otherwise, and without branches,
nothing is written. -/
theorem C65_merkle_exact (H : HashFns) (m : Mem) (c : Hdr) (w : c.WF m) (brs : List (Bytes × Nat)) :
    let r := BuildMerkleRootFromCoinbaseH H m c brs
    r.2.data r.1 = BuildMerkleRootFromCoinbase H (c.data m) (brs.map Prod.fst) ∧
    (∀ k < m.length, r.1.bytes k = (match brs with
      | [] => m
      | br :: _ => if c.len + (hexDecodeIgnore br.1).length ≤ c.cap then m.write c.arr (c.off + c.len) (hexDecodeIgnore br.1) else m).bytes k) := by
  intro r
  refine ⟨merkleLoop_value H brs m c w, fun k hk => ?_⟩
  rcases brs with _ | ⟨⟨br, grow⟩, brs⟩
  · rfl
  · have hr : r = merkleRootLoopH H ((m.append grow c (hexDecodeIgnore br)).1.fresh (Sha256d H ((m.append grow c (hexDecodeIgnore br)).2.data (m.append grow c (hexDecodeIgnore br)).1)) 0).1
        ((m.append grow c (hexDecodeIgnore br)).1.fresh (Sha256d H ((m.append grow c (hexDecodeIgnore br)).2.data (m.append grow c (hexDecodeIgnore br)).1)) 0).2 brs := rfl
    rw [hr, merkleLoop_new H m.length brs _ _ (Mem.fresh_wf _ _ _) (by simp only [Mem.fresh]; exact Mem.append_length)
      (by simp only [Mem.fresh, Mem.length_alloc]; have := Mem.append_length (grow := grow) (m := m) (h := c) (b := hexDecodeIgnore br); omega) k hk,
      Mem.fresh_old (lt_of_lt_of_le hk Mem.append_length)]
    dsimp only
    split_ifs with c2
    · rw [Mem.append_fits c2]
    · rw [Mem.append_grows c2, Mem.fresh_old hk]

/-- C65: the elements of every slice that ends at or before the end of `coinbaseHash`, in particular of `coinbaseHash` itself, and of
every slice of another array, are unchanged; if `coinbaseHash` has no spare capacity, all memory is. -/
theorem C65_merkle_unchanged (H : HashFns) (m : Mem) (c : Hdr) (w : c.WF m) (brs : List (Bytes × Nat)) :
    let r := BuildMerkleRootFromCoinbaseH H m c brs
    (∀ v : Hdr, v.WF m → (v.arr ≠ c.arr ∨ v.off + v.len ≤ c.off + c.len ∨ c.off + c.cap ≤ v.off) → v.data r.1 = v.data m) ∧
    (c.cap = c.len → ∀ k < m.length, r.1.bytes k = m.bytes k) := by
  intro r
  obtain ⟨-, h⟩ := C65_merkle_exact H m c w brs
  change ∀ k < m.length, r.1.bytes k = _ at h
  constructor
  · intro v wv hv
    simp only [Hdr.data, Hdr.view]
    rw [h _ wv.arr]
    rcases brs with _ | ⟨⟨br, grow⟩, brs⟩
    · rfl
    · dsimp only
      split_ifs with c2
      · have := w.cap
        by_cases e : v.arr = c.arr
        · rw [e]
          exact Mem.window_write w.arr (by omega) (by rcases hv with h | h | h
                                                      · exact absurd e h
                                                      · exact .inl (by omega)
                                                      · exact .inr (by omega))
        · rw [Mem.bytes_write_ne e]
      · rfl
  · intro hc k hk
    rw [h k hk]
    rcases brs with _ | ⟨⟨br, grow⟩, brs⟩
    · rfl
    · dsimp only
      split_ifs with c2
      · have : hexDecodeIgnore br = [] := List.eq_nil_of_length_eq_zero (by omega)
        rw [this]
        by_cases e : k = c.arr
        · subst e
          rw [Mem.bytes_write_eq w.arr]
          simp
        · exact Mem.bytes_write_ne e
      · rfl

/-- Memory with a 3-byte slice that has a spare byte, which another slice uses. -/
def sharedMem : Mem := [[1, 2, 3, 77]]

/-- C65, negation: the byte behind `coinbaseHash`, which belongs to another slice of the caller, is overwritten by the first branch. -/
theorem C65_violation : (⟨0, 0, 3, 4⟩ : Hdr).WF sharedMem ∧ (⟨0, 3, 1, 1⟩ : Hdr).WF sharedMem ∧
    (⟨0, 3, 1, 1⟩ : Hdr).data sharedMem = [77] ∧
    (⟨0, 3, 1, 1⟩ : Hdr).data (BuildMerkleRootFromCoinbaseH toyH sharedMem ⟨0, 0, 3, 4⟩ [(b!"05", 0)]).1 = [5] := by
  refine ⟨⟨?_, ?_, ?_⟩, ⟨?_, ?_, ?_⟩, ?_, ?_⟩ <;> decide +kernel

/-- The header and coinbase builders given arguments with shared, spare capacity. -/
example : (BuildCoinbaseH sharedMem ⟨0, 0, 3, 4⟩ ⟨0, 3, 1, 1⟩ b!"05" b!"06" [9, 0, 2]).2.data (BuildCoinbaseH sharedMem ⟨0, 0, 3, 4⟩ ⟨0, 3, 1, 1⟩ b!"05" b!"06" [9, 0, 2]).1 =
    [1, 2, 3, 5, 6, 77] ∧ (BuildCoinbaseH sharedMem ⟨0, 0, 3, 4⟩ ⟨0, 3, 1, 1⟩ b!"05" b!"06" [9, 0, 2]).1.bytes 0 = [1, 2, 3, 77] := by decide +kernel

example : (BuildBlockHeaderH sharedMem 1 b!"0a0b" ⟨0, 0, 3, 4⟩ ⟨0, 3, 1, 1⟩ ⟨0, 1, 1, 3⟩ ⟨0, 0, 0, 4⟩ []).1.bytes 0 = [1, 2, 3, 77] := by decide +kernel

/-! ## Decrypt -/

/-- C62: the exact effect of `Decrypt` on memory: its result is the value-level result, the slice `ciphertext` afterwards holds what the value-level
model says, and every slice in another array, before byte 16 of `ciphertext` or after its end, is unchanged. -/
theorem C62_memory_exact (ciph : BlockCipher) (h16 : ciph.BlockSize = 16) (m : Mem) (c : Hdr) (w : c.WF m) :
    (DecryptH ciph m c).1 = (Decrypt ciph (c.data m)).1 ∧ c.data (DecryptH ciph m c).2 = (Decrypt ciph (c.data m)).2 ∧
    ∀ v : Hdr, v.WF m → (v.arr ≠ c.arr ∨ v.off + v.len ≤ c.off + 16 ∨ c.off + c.len ≤ v.off) → v.data (DecryptH ciph m c).2 = v.data m := by
  have hE : ∀ b, (ciph.Encrypt b).length = 16 := fun b => by rw [ciph.Encrypt_length, h16]
  by_cases hl : c.len < 16
  · have e1 : DecryptH ciph m c = (.err "ciphertext too short", m) := by unfold DecryptH; rw [if_pos hl]
    have e2 : Decrypt ciph (c.data m) = (.err "ciphertext too short", c.data m) := by unfold Decrypt; rw [if_pos (by rw [w.len_data]; exact hl)]
    rw [e1, e2]
    exact ⟨rfl, rfl, fun _ _ _ => rfl⟩
  · have wl := w.len
    have wc := w.cap
    have s1 : c.sliceRange 0 16 = .ok ⟨c.arr, c.off, 16, c.cap⟩ := by
      unfold Hdr.sliceRange; rw [if_pos (by omega)]; rfl
    have s2 : c.sliceFrom 16 = .ok ⟨c.arr, c.off + 16, c.len - 16, c.cap - 16⟩ := by
      unfold Hdr.sliceFrom; rw [if_pos (by omega)]; rfl
    have div : (⟨c.arr, c.off, 16, c.cap⟩ : Hdr).data m = (c.data m).take 16 := by
      simp only [Hdr.data, Hdr.view]
      rw [List.take_take]
      congr 1; omega
    have dtext : (⟨c.arr, c.off + 16, c.len - 16, c.cap - 16⟩ : Hdr).data m = (c.data m).drop 16 := by
      simp only [Hdr.data, Hdr.view]
      rw [List.drop_take, List.drop_drop]
    set text := cfbDecrypt ciph.Encrypt ((c.data m).drop 16).length ((c.data m).take 16) ((c.data m).drop 16) with htext
    have htl : text.length = c.len - 16 := by
      rw [htext, cfbDecrypt_length _ hE _ _ _ (le_refl _), List.length_drop, w.len_data]
    have hdl : ((c.data m).drop 16).length = c.len - 16 := by rw [List.length_drop, w.len_data]
    have e2 : Decrypt ciph (c.data m) = (base64Decode text, (c.data m).take 16 ++ text) := by
      unfold Decrypt; rw [if_neg (by rw [w.len_data]; exact hl), if_neg (by omega)]
    set m' := m.write c.arr (c.off + 16) text with hm'
    have hdata' : (⟨c.arr, c.off + 16, c.len - 16, c.cap - 16⟩ : Hdr).data m' = text := by
      simp only [Hdr.data, Hdr.view]
      rw [hm', window_overwritten w.arr (by omega) (le_refl _) (by omega), Nat.sub_self, List.drop_zero, ← htl]
      simp
    have e1 : DecryptH ciph m c = (base64Decode text, m') := by
      unfold DecryptH
      rw [if_neg hl, s1, s2]
      dsimp only
      rw [if_neg (by omega), div, dtext, ← hdl, ← htext]
      have : m.copy ⟨c.arr, c.off + 16, ((c.data m).drop 16).length, c.cap - 16⟩ text = m' := by
        unfold Mem.copy; dsimp only; rw [List.take_of_length_le (by omega)]
      rw [this]
      rw [hdl, hdata']
    rw [e1, e2]
    refine ⟨rfl, ?_, ?_⟩
    · have hsplit : c.data m' = (c.data m').take 16 ++ (c.data m').drop 16 := (List.take_append_drop 16 _).symm
      have a1 : (c.data m').take 16 = (c.data m).take 16 := by
        have h1 : ∀ m : Mem, (c.data m).take 16 = ((m.bytes c.arr).drop c.off).take 16 := fun m => by
          simp only [Hdr.data, Hdr.view]; rw [List.take_take]; congr 1; omega
        rw [h1, h1, hm']
        exact Mem.window_write w.arr (by omega) (.inl (by omega))
      have a2 : (c.data m').drop 16 = text := by
        rw [← hdata']
        simp only [Hdr.data, Hdr.view]
        rw [List.drop_take, List.drop_drop]
      rw [hsplit, a1, a2]
    · intro v wv hv
      simp only [Hdr.data, Hdr.view]
      by_cases e : v.arr = c.arr
      · rw [e, hm']
        exact Mem.window_write w.arr (by omega) (by rcases hv with h | h | h
                                                    · exact absurd e h
                                                    · exact .inl (by omega)
                                                    · exact .inr (by omega))
      · rw [hm', Mem.bytes_write_ne e]

/-- The hypotheses are met, and the caller's slice does change. -/
example : (DecryptH toyCipher [List.replicate 40 7] ⟨0, 0, 40, 40⟩).2 ≠ [List.replicate 40 7] := by decide +kernel

end Verif.Props
