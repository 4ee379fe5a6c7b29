import Verif.Lemmas.Heap
import Verif.Lemmas.PushData
/-!
# Decoding a script held in memory
-/
namespace Verif
open Verif.Spec

/-- The header of the bytes of `b` from `lo`, `n` of them, with the capacity up to the end of `b`. -/
def Hdr.window (b : Hdr) (lo n : Nat) : Hdr := ⟨b.arr, b.off + lo, n, b.cap - lo⟩

theorem Hdr.data_window {m : Mem} {b : Hdr} (lo n : Nat) (h : lo + n ≤ b.len) :
    (b.window lo n).data m = ((b.data m).drop lo).take n := by
  simp only [Hdr.data, Hdr.view, Hdr.window, List.drop_take, List.drop_drop, List.take_take]
  rw [Nat.min_eq_left (by omega)]

theorem Hdr.WF.window {m : Mem} {b : Hdr} (w : b.WF m) {lo n : Nat} (h : lo + n ≤ b.len) : (b.window lo n).WF m := by
  have h1 := w.len; have h2 := w.cap
  exact ⟨w.arr, by simp only [Hdr.window]; omega, by simp only [Hdr.window]; omega⟩

theorem Hdr.window_window (b : Hdr) (lo n lo' n' : Nat) (h : lo ≤ b.cap) : (b.window lo n).window lo' n' = b.window (lo + lo') n' := by
  simp only [Hdr.window, Hdr.mk.injEq, true_and]; omega

theorem cutH_eq {m : Mem} {b : Hdr} (w : b.WF m) {lo hi : Nat} (h : ¬ b.len < hi) :
    cutH b lo hi = match sub (b.data m) lo hi with
      | some part => .ok (b.window lo part.length, b.window hi (b.len - hi))
      | none => .error .panic := by
  have h1 := w.len
  have h2 := w.len_data
  unfold cutH sub Hdr.sliceRange Hdr.sliceFrom
  by_cases c : lo ≤ hi
  · rw [if_pos ⟨by omega, by omega, by omega⟩, if_pos ⟨by omega, by omega⟩, if_pos ⟨c, by omega⟩]
    dsimp only
    simp only [Hdr.window, List.length_drop, List.length_take, Int.toNat_natCast]
    rw [Nat.min_eq_left (by omega)]
  · have n1 : ¬ (0 ≤ (lo : Int) ∧ (lo : Int) ≤ (hi : Int) ∧ (hi : Int) ≤ (b.cap : Int)) := by omega
    have n2 : ¬ (lo ≤ hi ∧ hi ≤ (b.data m).length) := by omega
    rw [if_neg n1, if_neg n2]

/-- One step on headers is one step on bytes. -/
theorem decodeStepH_eq {m : Mem} {b : Hdr} (w : b.WF m) :
    (∀ e, decodeStep (b.data m) = .error e → decodeStepH m b = .error e) ∧
    (∀ part rest, decodeStep (b.data m) = .ok (part, rest) →
      (decodeStepH m b = .ok (m, b.window (b.len - rest.length - part.length) part.length, b.window (b.len - rest.length) rest.length) ∧
        (1 ≤ ((b.data m).getD 0 0).toNat ∧ ((b.data m).getD 0 0).toNat ≤ 0x4e)) ∨
      (decodeStepH m b = .ok ((m.fresh part 0).1, (m.fresh part 0).2, b.window (b.len - rest.length) rest.length) ∧
        ((b.data m).getD 0 0 = 0 ∨ 0x4e < (b.data m).getD 0 0))) := by
  have hl := w.len_data
  have hc := w.len
  generalize hd : b.data m = d at hl
  rcases d with _ | ⟨b0, r⟩
  · have h0 : b.len = 0 := by simpa using hl.symm
    constructor
    · intro e he; simp only [decodeStep, Except.error.injEq] at he; subst he; simp [decodeStepH, h0]
    · intro part rest h; simp [decodeStep] at h
  have h0 : b.len ≠ 0 := by rw [← hl]; simp
  have cut : ∀ lo hi, ¬ b.len < hi → cutH b lo hi = match sub (b0 :: r) lo hi with
      | some part => .ok (b.window lo part.length, b.window hi (b.len - hi))
      | none => .error .panic := fun lo hi h => by rw [cutH_eq w h, hd]
  have key : ∀ lo hi : Nat, 1 ≤ b0.toNat → b0.toNat ≤ 0x4e →
      (∀ e, (if (b0 :: r).length < hi then Except.error Ending.notEnoughData
        else match sub (b0 :: r) lo hi with
          | some part => .ok (part, (b0 :: r).drop hi)
          | none => .error .panic) = Except.error e → (if b.len < hi then .error .notEnoughData
        else (cutH b lo hi).map fun r => (m, r.1, r.2)) = Except.error e) ∧
      (∀ part rest, (if (b0 :: r).length < hi then Except.error Ending.notEnoughData
        else match sub (b0 :: r) lo hi with
          | some part => .ok (part, (b0 :: r).drop hi)
          | none => .error .panic) = .ok (part, rest) → 
          ((if b.len < hi then .error .notEnoughData
            else (cutH b lo hi).map fun r => (m, r.1, r.2)) = Except.ok (m, b.window (b.len - rest.length - part.length) part.length, b.window (b.len - rest.length) rest.length) ∧
            (1 ≤ b0.toNat ∧ b0.toNat ≤ 0x4e)) ∨
          ((if b.len < hi then .error .notEnoughData
            else (cutH b lo hi).map fun r => (m, r.1, r.2)) = Except.ok ((m.fresh part 0).1, (m.fresh part 0).2, b.window (b.len - rest.length) rest.length) ∧
            (b0 = 0 ∨ 0x4e < b0))) := by
    intro lo hi g1 g2
    rw [hl]
    by_cases c : b.len < hi
    · simp only [c, if_true]
      exact ⟨fun e h => by simpa using h, fun part rest h => by simp at h⟩
    · simp only [c, if_false]
      rw [cut lo hi c]
      cases hs : sub (b0 :: r) lo hi with
      | none => exact ⟨fun e h => by simpa [Except.map] using h, fun part rest h => by simp at h⟩
      | some p =>
        refine ⟨fun e h => by simp at h, fun part rest h => ?_⟩
        simp only [Except.ok.injEq, Prod.mk.injEq] at h
        obtain ⟨rfl, rfl⟩ := h
        left
        refine ⟨?_, g1, g2⟩
        have hp : lo ≤ hi ∧ p.length = hi - lo := by
          unfold sub at hs
          split_ifs at hs with c'
          · cases hs; simp only [List.length_drop, List.length_take]; omega
        simp only [Except.map, List.length_drop, hl]
        have e1 : b.len - (b.len - hi) = hi := by omega
        rw [e1]
        have e2 : hi - p.length = lo := by omega
        rw [e2]
  by_cases c1 : b0 = Op.OpPUSHDATA1
  · subst c1
    have := key 2 (2 + ((Op.OpPUSHDATA1 :: r).getD 1 0).toUInt64).toNat (by decide) (by decide)
    unfold decodeStep decodeStepH
    simp only [h0, hd, hl, if_true, if_false, List.getD_cons_zero] at this ⊢
    by_cases c2 : b.len < 2
    · simp only [c2, if_true]; exact ⟨fun e h => by simpa using h, fun part rest h => by simp at h⟩
    · simp only [c2, if_false]; exact this
  by_cases c2 : b0 = Op.OpPUSHDATA2
  · subst c2
    have := key 3 (3 + UInt16.ofNat (leNat (((Op.OpPUSHDATA2 :: r).drop 1).take 2))).toNat (by decide) (by decide)
    have ne : ¬ Op.OpPUSHDATA2 = Op.OpPUSHDATA1 := by decide
    unfold decodeStep decodeStepH
    simp only [h0, hd, hl, ne, if_true, if_false, List.getD_cons_zero] at this ⊢
    by_cases c3 : b.len < 3
    · simp only [c3, if_true]; exact ⟨fun e h => by simpa using h, fun part rest h => by simp at h⟩
    · simp only [c3, if_false]; exact this
  by_cases c3 : b0 = Op.OpPUSHDATA4
  · subst c3
    have := key 5 (5 + UInt32.ofNat (leNat (((Op.OpPUSHDATA4 :: r).drop 1).take 4))).toNat (by decide) (by decide)
    have ne : ¬ Op.OpPUSHDATA4 = Op.OpPUSHDATA1 := by decide
    have ne' : ¬ Op.OpPUSHDATA4 = Op.OpPUSHDATA2 := by decide
    unfold decodeStep decodeStepH
    simp only [h0, hd, hl, ne, ne', if_true, if_false, List.getD_cons_zero] at this ⊢
    by_cases c4 : b.len < 5
    · simp only [c4, if_true]; exact ⟨fun e h => by simpa using h, fun part rest h => by simp at h⟩
    · simp only [c4, if_false]; exact this
  by_cases c4 : b0 ≥ 0x01 ∧ b0 ≤ 0x4e
  · have g1 : 1 ≤ b0.toNat := by have := UInt8.le_iff_toNat_le.mp c4.1; simpa using this
    have g2 : b0.toNat ≤ 0x4e := by have := UInt8.le_iff_toNat_le.mp c4.2; simpa using this
    have := key 1 (1 + b0).toNat g1 g2
    unfold decodeStep decodeStepH
    simp only [h0, hd, hl, c1, c2, c3, c4, and_self, if_true, if_false, List.getD_cons_zero] at this ⊢
    exact this
  · unfold decodeStep decodeStepH
    simp only [h0, hd, c1, c2, c3, c4, if_false, List.getD_cons_zero]
    refine ⟨fun e h => by simp at h, fun part rest h => ?_⟩
    simp only [Except.ok.injEq, Prod.mk.injEq] at h
    obtain ⟨rfl, rfl⟩ := h
    right
    have h1 : 1 ≤ b.len := by omega
    have hs : b.sliceFrom 1 = .ok (b.window 1 (b.len - 1)) := by
      unfold Hdr.sliceFrom; rw [if_pos ⟨by omega, by omega⟩]; rfl
    rw [hs]
    simp only [List.length_cons] at hl
    refine ⟨?_, ?_⟩
    · simp only [List.drop_succ_cons, List.drop_zero]
      have e1 : b.len - r.length = 1 := by omega
      have e2 : b.len - 1 = r.length := by omega
      rw [e1, e2]
    · rw [not_and_or] at c4
      rcases c4 with c4 | c4
      · left
        have : ¬ 1 ≤ b0.toNat := fun h => c4 (UInt8.le_iff_toNat_le.mpr (by simpa using h))
        have : b0.toNat = 0 := by omega
        exact UInt8.toNat_inj.mp (by simpa using this)
      · right
        have : ¬ b0.toNat ≤ 0x4e := fun h => c4 (UInt8.le_iff_toNat_le.mpr (by simpa using h))
        exact UInt8.lt_iff_toNat_lt.mpr (by simpa using Nat.lt_of_not_le this)

/-- What each part is, given the tokens of the script: `pos` is where the first token begins, `next` the number of the next array. -/
def partsAt (b : Hdr) : Nat → Nat → List Token → List Hdr
  | _, _, [] => []
  | pos, next, .op o :: ts => ⟨next, 0, 1, 1⟩ :: partsAt b (pos + (Token.op o).bytes.length) (next + 1) ts
  | pos, next, t :: ts => b.window (pos + t.header.length) t.data.length :: partsAt b (pos + t.bytes.length) next ts

/-- The opcodes among the tokens, each in an array of its own. -/
def opArrays : List Token → List Bytes
  | [] => []
  | .op o :: ts => [o] :: opArrays ts
  | _ :: ts => opArrays ts

theorem partsAt_window (b : Hdr) (k n : Nat) (hk : k ≤ b.cap) : ∀ (ts : List Token) (pos next : Nat),
    partsAt (b.window k n) pos next ts = partsAt b (k + pos) next ts := by
  intro ts
  induction ts with
  | nil => intro _ _; rfl
  | cons t ts ih =>
    intro pos next
    cases t <;> simp only [partsAt, ih, Hdr.window_window _ _ _ _ _ hk, Nat.add_assoc]

theorem token_first_op {t : Token} {rest : Bytes} (hv : t.Valid) :
    (∃ o, t = .op o ∧ ((t.bytes ++ rest).getD 0 0 = 0 ∨ 0x4e < (t.bytes ++ rest).getD 0 0)) ∨
    (t.IsPush ∧ 1 ≤ ((t.bytes ++ rest).getD 0 0).toNat ∧ ((t.bytes ++ rest).getD 0 0).toNat ≤ 0x4e) := by
  cases t with
  | op o => left; exact ⟨o, rfl, by simpa [Token.bytes, Token.header, Token.Valid] using hv⟩
  | direct d =>
    right
    obtain ⟨h1, h2⟩ := hv
    refine ⟨trivial, ?_, ?_⟩ <;> simp only [Token.bytes, Token.header, List.cons_append, List.getD_cons_zero, UInt8.toNat_ofNat'] <;>
      rw [Nat.mod_eq_of_lt (by omega)] <;> omega
  | pd1 d => right; exact ⟨trivial, by simp [Token.bytes, Token.header], by simp [Token.bytes, Token.header]⟩
  | pd2 d => right; exact ⟨trivial, by simp [Token.bytes, Token.header], by simp [Token.bytes, Token.header]⟩
  | pd4 d => right; exact ⟨trivial, by simp [Token.bytes, Token.header], by simp [Token.bytes, Token.header]⟩

theorem decodeLoopH_eq (fuel : Nat) : ∀ (m : Mem) (b : Hdr), b.WF m → b.len < fuel →
    ∃ ts rest e, (∀ t ∈ ts, t.Valid) ∧ (∀ t ∈ ts, Decodable t) ∧ b.data m = bytesOf ts ++ rest ∧ decodeStep rest = .error e ∧
      decodeLoop fuel (b.data m) = (payloads ts, e) ∧ decodeLoopH fuel m b = (m ++ opArrays ts, partsAt b 0 m.length ts, e) := by
  induction fuel with
  | zero => intro m b _ h; omega
  | succ fuel ih =>
    intro m b w hf
    have hl := w.len_data
    obtain ⟨H1, H2⟩ := decodeStepH_eq w
    have herr : ∀ e, decodeStep (b.data m) = .error e → ∃ ts rest e, (∀ t ∈ ts, t.Valid) ∧ (∀ t ∈ ts, Decodable t) ∧
        b.data m = bytesOf ts ++ rest ∧ decodeStep rest = .error e ∧
        decodeLoop (fuel + 1) (b.data m) = (payloads ts, e) ∧ decodeLoopH (fuel + 1) m b = (m ++ opArrays ts, partsAt b 0 m.length ts, e) := by
      intro e he
      refine ⟨[], b.data m, e, by simp, by simp, by simp [bytesOf], he, ?_, ?_⟩
      · simp [decodeLoop, he, payloads]
      · simp [decodeLoopH, H1 e he, opArrays, partsAt]
    rcases decodeStep_cases (b.data m) with ⟨_, h⟩ | ⟨t, rest, hv, hd, hb, hs⟩ | ⟨_, _, h⟩ | ⟨_, h⟩
    · exact herr _ h
    · have hpos := Token.bytes_length_pos t
      have hlen : t.bytes.length + rest.length = b.len := by rw [← hl, hb]; simp
      have hc := w.len
      have e1 : b.len - rest.length = t.bytes.length := by omega
      have w' : (b.window t.bytes.length rest.length).WF m := w.window (by omega)
      have hdata' : (b.window t.bytes.length rest.length).data m = rest := by
        rw [Hdr.data_window _ _ (by omega), hb, List.drop_left, List.take_length]
      have H3 := H2 _ _ hs
      rw [e1] at H3
      rcases token_first_op (rest := rest) hv with ⟨o, rfl, ho⟩ | ⟨hp, hq⟩
      · have hstep : decodeStepH m b = .ok ((m.fresh [o] 0).1, (m.fresh [o] 0).2, b.window (Token.op o).bytes.length rest.length) := by
          rcases H3 with ⟨_, hq⟩ | ⟨h3, _⟩
          · rw [hb] at hq
            exfalso
            rcases ho with ho | ho
            · rw [ho] at hq; simp at hq
            · have := UInt8.lt_iff_toNat_lt.mp ho
              have h4e : (0x4e : UInt8).toNat = 78 := rfl
              omega
          · exact h3
        have hm1 : (m.fresh [o] 0).1 = m ++ [[o]] := by simp [Mem.fresh, Mem.alloc]
        have hm2 : (m.fresh [o] 0).2 = ⟨m.length, 0, 1, 1⟩ := by simp [Mem.fresh]
        rw [hm1, hm2] at hstep
        have hbytes : (m ++ [[o]] : Mem).bytes b.arr = m.bytes b.arr := Mem.bytes_alloc_lt w.arr
        have w'' : (b.window (Token.op o).bytes.length rest.length).WF (m ++ [[o]]) :=
          w'.mono (by simp) (by exact congrArg List.length hbytes)
        obtain ⟨ts, rs, e, g1, g2, g3, g4, g5, g6⟩ := ih (m ++ [[o]]) _ w'' (by simp only [Hdr.window]; omega)
        have hdata'' : (b.window (Token.op o).bytes.length rest.length).data (m ++ [[o]]) = rest := by
          refine Eq.trans ?_ hdata'; exact Hdr.data_congr hbytes
        rw [hdata''] at g3 g5
        refine ⟨.op o :: ts, rs, e, ?_, ?_, ?_, g4, ?_, ?_⟩
        · intro t ht; rcases List.mem_cons.mp ht with rfl | ht; exacts [hv, g1 t ht]
        · intro t ht; rcases List.mem_cons.mp ht with rfl | ht; exacts [hd, g2 t ht]
        · rw [hb, g3]; simp [bytesOf]
        · simp [decodeLoop, hs, g5, payloads]
        · rw [partsAt_window b _ _ (by omega)] at g6
          simp only [decodeLoopH, hstep, g6, opArrays, partsAt, Nat.add_zero, Nat.zero_add, List.length_append, List.length_singleton,
            List.append_assoc, List.singleton_append]
      · have hpay : t.payload = t.data := by
          cases t with
          | op o => exact hp.elim
          | direct d | pd1 d | pd2 d | pd4 d => rfl
        have hhd : t.bytes.length = t.header.length + t.data.length := by simp [Token.bytes]
        have hstep : decodeStepH m b = .ok (m, b.window t.header.length t.data.length, b.window t.bytes.length rest.length) := by
          rcases H3 with ⟨h3, _⟩ | ⟨_, hq'⟩
          · rw [hpay] at h3
            rw [h3, show t.bytes.length - t.data.length = t.header.length by omega]
          · rw [hb] at hq'
            exfalso
            rcases hq' with ho | ho
            · rw [ho] at hq; simp at hq
            · have := UInt8.lt_iff_toNat_lt.mp ho
              have h4e : (0x4e : UInt8).toNat = 78 := rfl
              omega
        obtain ⟨ts, rs, e, g1, g2, g3, g4, g5, g6⟩ := ih m _ w' (by simp only [Hdr.window]; omega)
        rw [hdata'] at g3 g5
        refine ⟨t :: ts, rs, e, ?_, ?_, ?_, g4, ?_, ?_⟩
        · intro t ht; rcases List.mem_cons.mp ht with rfl | ht; exacts [hv, g1 t ht]
        · intro t ht; rcases List.mem_cons.mp ht with rfl | ht; exacts [hd, g2 t ht]
        · rw [hb, g3]; simp [bytesOf]
        · simp [decodeLoop, hs, g5, payloads]
        · rw [partsAt_window b _ _ (by omega)] at g6
          simp only [decodeLoopH, hstep, g6]
          cases t with
          | op o => exact hp.elim
          | direct d | pd1 d | pd2 d | pd4 d => simp only [opArrays, partsAt, Nat.add_zero, Nat.zero_add]
    · exact herr _ h
    · exact herr _ h

/-- Part number `i`: a window of the script for a push, an array of its own for an opcode. -/
theorem partsAt_get (b : Hdr) : ∀ (ts : List Token) (pos next i : Nat) (t : Token) (p : Hdr), ts[i]? = some t → (partsAt b pos next ts)[i]? = some p →
    (t.IsPush → p = b.window (pos + (bytesOf (ts.take i)).length + t.header.length) t.data.length) ∧
    (∀ o, t = .op o → p = ⟨next + (opArrays (ts.take i)).length, 0, 1, 1⟩ ∧ (opArrays ts)[(opArrays (ts.take i)).length]? = some [o]) := by
  intro ts
  induction ts with
  | nil => intro pos next i t p h; simp at h
  | cons u ts ih =>
    intro pos next i t p ht hp
    cases i with
    | zero =>
      simp only [List.getElem?_cons_zero, Option.some.injEq] at ht
      subst ht
      cases u <;> simp only [partsAt, List.getElem?_cons_zero, Option.some.injEq] at hp <;> subst hp <;>
        simp [bytesOf, opArrays, Token.IsPush]
    | succ i =>
      simp only [List.getElem?_cons_succ] at ht
      cases u with
      | op o =>
        simp only [partsAt, List.getElem?_cons_succ] at hp
        obtain ⟨h1, h2⟩ := ih _ _ i t p ht hp
        refine ⟨fun g => ?_, fun o' g => ?_⟩
        · rw [h1 g]; congr 1; simp [bytesOf]; omega
        · obtain ⟨h3, h4⟩ := h2 o' g
          simp only [List.take_succ_cons, opArrays, List.length_cons, List.getElem?_cons_succ]
          exact ⟨by rw [h3]; simp only [Hdr.mk.injEq, and_self, and_true]; omega, h4⟩
      | direct d | pd1 d | pd2 d | pd4 d =>
        simp only [partsAt, List.getElem?_cons_succ] at hp
        obtain ⟨h1, h2⟩ := ih _ _ i t p ht hp
        refine ⟨fun g => ?_, fun o' g => ?_⟩
        · rw [h1 g]; congr 1; simp [bytesOf]; omega
        · simpa only [List.take_succ_cons, opArrays] using h2 o' g

theorem partsAt_length (b : Hdr) : ∀ (ts : List Token) (pos next : Nat), (partsAt b pos next ts).length = ts.length := by
  intro ts
  induction ts with
  | nil => intro _ _; rfl
  | cons t ts ih => intro _ _; cases t <;> simp [partsAt, ih]

end Verif
