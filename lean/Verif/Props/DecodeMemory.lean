import Verif.Lemmas.DecodeHeap
import Verif.Props.Memory
import Verif.Props.PushData
import Verif.Spec.Signing
/-!
# C82: the parts returned by `DecodeParts` are views of the script
-/
namespace Verif.Props
open Verif Spec

/-- C82 (values): decoding a script held in memory returns the parts and the ending of the value-level decoder, and changes no array that existed before. -/
theorem C82_values {m : Mem} {b : Hdr} (w : b.WF m) :
    ((DecodePartsH m b).2.1.map (Hdr.data (DecodePartsH m b).1), (DecodePartsH m b).2.2) = DecodePartsFull (b.data m) ∧
    ∀ a < m.length, (DecodePartsH m b).1.bytes a = m.bytes a := by
  obtain ⟨ts, rest, e, _, _, hb, _, h1, h2⟩ := decodeLoopH_eq (b.len + 1) m b w (Nat.lt_succ_self _)
  have hold : ∀ a < m.length, (m ++ opArrays ts : Mem).bytes a = m.bytes a := by
    intro a ha
    simp only [Mem.bytes, List.getD_eq_getElem?_getD]
    rw [List.getElem?_append_left ha]
  unfold DecodePartsH DecodePartsFull
  rw [w.len_data, h1, h2]
  refine ⟨?_, hold⟩
  dsimp only
  congr 1
  apply List.ext_getElem?
  intro i
  simp only [payloads, List.getElem?_map]
  cases ht : ts[i]? with
  | none =>
    rw [List.getElem?_eq_none (by rw [partsAt_length]; exact List.getElem?_eq_none_iff.mp ht)]; rfl
  | some t =>
    obtain ⟨hi, hti⟩ := List.getElem?_eq_some_iff.mp ht
    have hp : (partsAt b 0 m.length ts)[i]? = some ((partsAt b 0 m.length ts)[i]'(by rw [partsAt_length]; exact hi)) :=
      List.getElem?_eq_getElem _
    obtain ⟨g1, g2⟩ := partsAt_get b ts 0 m.length i t _ ht hp
    rw [hp]
    simp only [Option.map_some, Option.some.injEq]
    have hsplit : bytesOf ts = bytesOf (ts.take i) ++ (t.bytes ++ bytesOf (ts.drop (i + 1))) := by
      conv_lhs => rw [← List.take_append_drop i ts, bytesOf_append, List.drop_eq_getElem_cons hi, hti]
      simp [bytesOf]
    have hlen := w.len_data
    rw [hb, hsplit] at hlen
    simp only [List.length_append, Token.bytes] at hlen
    cases t with
    | op o =>
      obtain ⟨g3, g4⟩ := g2 o rfl
      rw [g3]
      simp only [Hdr.data, Hdr.view, Mem.bytes, List.getD_eq_getElem?_getD]
      rw [List.getElem?_append_right (by omega), Nat.add_sub_cancel_left, g4]
      rfl
    | direct d | pd1 d | pd2 d | pd4 d =>
      rw [g1 trivial, Hdr.data_window _ _ (by simp only [Nat.zero_add]; omega), Hdr.data_congr (hold _ w.arr), hb, hsplit]
      simp only [Token.payload, Token.bytes, Nat.zero_add, List.append_assoc]
      rw [List.drop_append, List.drop_of_length_le (by omega), List.nil_append, Nat.add_sub_cancel_left, List.drop_left]
      simp [Token.data]

/-- The tokens found by the decoder begin with any decodable token sequence the script begins with. -/
theorem tokens_prefix : ∀ (ts us : List Token) (r s : Bytes) (e : Ending), (∀ t ∈ ts, t.Valid) → (∀ t ∈ ts, Decodable t) → (∀ t ∈ us, t.Valid) →
    (∀ t ∈ us, Decodable t) → bytesOf ts ++ r = bytesOf us ++ s → decodeStep s = .error e → ∃ vs, us = ts ++ vs ∧ r = bytesOf vs ++ s := by
  intro ts
  induction ts with
  | nil => intro us r s e _ _ _ _ h _; exact ⟨us, rfl, by simpa [bytesOf] using h⟩
  | cons t ts ih =>
    intro us r s e h1 h2 h3 h4 h hs
    have ht := decodeStep_token t (bytesOf ts ++ r) (h1 t (by simp)) (h2 t (by simp))
    have hL : bytesOf (t :: ts) ++ r = t.bytes ++ (bytesOf ts ++ r) := by simp [bytesOf]
    cases us with
    | nil =>
      exfalso
      rw [show bytesOf [] ++ s = s from rfl] at h
      rw [← hL, h, hs] at ht
      cases ht
    | cons u us =>
      have hu := decodeStep_token u (bytesOf us ++ s) (h3 u (by simp)) (h4 u (by simp))
      have hR : bytesOf (u :: us) ++ s = u.bytes ++ (bytesOf us ++ s) := by simp [bytesOf]
      rw [← hL, h, hR, hu] at ht
      simp only [Except.ok.injEq, Prod.mk.injEq] at ht
      rw [hL, hR, ht.2] at h
      have htu := List.append_cancel_right h
      have : [t] = [u] := C09_tokens_unique [t] [u] (by simpa using h1 t (by simp)) (by simpa using h3 u (by simp)) (by simpa [bytesOf] using htu)
      cases this
      obtain ⟨vs, rfl, g⟩ := ih us r s e (fun x hx => h1 x (by simp [hx])) (fun x hx => h2 x (by simp [hx])) (fun x hx => h3 x (by simp [hx]))
        (fun x hx => h4 x (by simp [hx])) ht.2.symm hs
      exact ⟨vs, rfl, g⟩

/-- Where part number `pre.length` lies. -/
theorem part_header {m : Mem} {b : Hdr} (w : b.WF m) (pre : List Token) (t : Token) (rest : Bytes) (hv : ∀ u ∈ pre ++ [t], u.Valid)
    (hd : ∀ u ∈ pre ++ [t], Decodable u) (hb : b.data m = bytesOf pre ++ t.bytes ++ rest) :
    ∃ p ops, (DecodePartsH m b).2.1[pre.length]? = some p ∧ (DecodePartsH m b).1 = m ++ ops ∧
      (t.IsPush → p = b.window ((bytesOf pre).length + t.header.length) t.data.length) ∧
      (¬ t.IsPush → m.length ≤ p.arr ∧ p.arr < m.length + ops.length ∧ p.off = 0 ∧ p.len = 1 ∧ p.cap = 1) := by
  obtain ⟨ts, rest', e, h1, h2, h3, h4, _, h6⟩ := decodeLoopH_eq (b.len + 1) m b w (Nat.lt_succ_self _)
  have hb' : bytesOf (pre ++ [t]) ++ rest = bytesOf ts ++ rest' := by
    rw [← h3, hb]; simp [bytesOf]
  obtain ⟨vs, rfl, _⟩ := tokens_prefix _ _ _ _ e hv hd h1 h2 hb' h4
  have hget : (pre ++ [t] ++ vs)[pre.length]? = some t := by simp
  have hlen : pre.length < (partsAt b 0 m.length (pre ++ [t] ++ vs)).length := by rw [partsAt_length]; simp
  obtain ⟨g1, g2⟩ := partsAt_get b _ 0 m.length _ t _ hget (List.getElem?_eq_getElem hlen)
  have htake : (pre ++ [t] ++ vs).take pre.length = pre := by simp [List.append_assoc]
  rw [htake] at g1 g2
  refine ⟨_, opArrays (pre ++ [t] ++ vs), by unfold DecodePartsH; rw [h6]; exact List.getElem?_eq_getElem hlen, by unfold DecodePartsH; rw [h6], ?_, ?_⟩
  · intro hp; rw [g1 hp, Nat.zero_add]
  · intro hp
    cases t with
    | op o =>
      obtain ⟨g3, g4⟩ := g2 o rfl
      have := (List.getElem?_eq_some_iff.mp g4).1
      rw [g3]
      exact ⟨by simp, by simpa using this, rfl, rfl, rfl⟩
    | direct d | pd1 d | pd2 d | pd4 d => exact absurd trivial hp

/-- C82 (view): let a script begin with tokens `pre` and then `t`. If `t` is a push, the part returned for it is a view of the script: in every memory,
now or later, it reads as those bytes of the script at which the data of `t` lies. -/
theorem C82_view {m : Mem} {b : Hdr} (w : b.WF m) (pre : List Token) (t : Token) (rest : Bytes) (hv : ∀ u ∈ pre ++ [t], u.Valid)
    (hd : ∀ u ∈ pre ++ [t], Decodable u) (hb : b.data m = bytesOf pre ++ t.bytes ++ rest) (hp : t.IsPush) :
    ∃ p, (DecodePartsH m b).2.1[pre.length]? = some p ∧
      ∀ m' : Mem, p.data m' = ((b.data m').drop ((bytesOf pre).length + t.header.length)).take t.data.length := by
  obtain ⟨p, ops, h1, h2, h3, -⟩ := part_header w pre t rest hv hd hb
  have hlen := w.len_data
  rw [hb] at hlen
  simp only [List.length_append, Token.bytes] at hlen
  refine ⟨p, h1, fun m' => ?_⟩
  rw [h3 hp, Hdr.data_window _ _ (by omega)]

theorem data_after_write {m : Mem} {b : Hdr} (w : b.WF m) {pre mid post d : Bytes} (hb : b.data m = pre ++ mid ++ post) (hl : d.length = mid.length) :
    b.data (m.write b.arr (b.off + pre.length) d) = pre ++ d ++ post := by
  have h1 := w.len_data
  have h2 := w.cap
  have h3 := w.len
  rw [hb] at h1
  simp only [List.length_append] at h1
  have hbytes : ∀ i, i < b.len → (m.bytes b.arr)[b.off + i]? = (pre ++ mid ++ post)[i]? := by
    intro i hi
    rw [← hb]
    simp only [Hdr.data, Hdr.view, List.getElem?_take, List.getElem?_drop, if_pos hi]
  apply List.ext_getElem?
  intro i
  simp only [Hdr.data, Hdr.view, List.getElem?_take, List.getElem?_drop]
  by_cases hi : i < b.len
  · rw [if_pos hi, Mem.bytes_write_eq w.arr]
    have hbi := hbytes i hi
    simp only [List.getElem?_append, List.getElem?_take, List.getElem?_drop, List.length_take, List.length_append] at hbi ⊢
    have e0 : min (b.off + pre.length) (m.bytes b.arr).length = b.off + pre.length := by omega
    rw [e0]
    split_ifs at hbi ⊢ <;> first
      | omega
      | exact hbi
      | (congr 1; omega)
      | (rw [show b.off + pre.length + d.length + (b.off + i - (b.off + pre.length + d.length)) = b.off + i by omega, hbi]; congr 1; omega)
  · rw [if_neg hi, List.getElem?_eq_none]
    simp only [List.length_append]; omega

/-- C82 (overwrite): writing through the part of a push rewrites the data of that push in the script, and nothing else of it; writing through the part of
an opcode, or appending to it, leaves the script as it was. -/
theorem C82_overwrite {m : Mem} {b : Hdr} (w : b.WF m) (pre : List Token) (t : Token) (rest : Bytes) (hv : ∀ u ∈ pre ++ [t], u.Valid)
    (hd : ∀ u ∈ pre ++ [t], Decodable u) (hb : b.data m = bytesOf pre ++ t.bytes ++ rest) :
    ∃ p, (DecodePartsH m b).2.1[pre.length]? = some p ∧
      (t.IsPush → ∀ d : Bytes, d.length = t.data.length →
        b.data ((DecodePartsH m b).1.copy p d) = bytesOf pre ++ t.header ++ d ++ rest) ∧
      (¬ t.IsPush → ∀ (d : Bytes) (grow : Nat), b.data ((DecodePartsH m b).1.copy p d) = b.data m ∧
        b.data ((DecodePartsH m b).1.append grow p d).1 = b.data m) := by
  obtain ⟨p, ops, h1, h2, h3, h4⟩ := part_header w pre t rest hv hd hb
  have hold : ∀ a < m.length, (m ++ ops : Mem).bytes a = m.bytes a := by
    intro a ha
    simp only [Mem.bytes, List.getD_eq_getElem?_getD]
    rw [List.getElem?_append_left ha]
  refine ⟨p, h1, fun hp d hl => ?_, fun hp d grow => ?_⟩
  · rw [h2, h3 hp]
    simp only [Mem.copy, Hdr.window]
    have w' : b.WF (m ++ ops) := w.mono (by simp) (by rw [hold _ w.arr])
    have hb' : b.data (m ++ ops) = (bytesOf pre ++ t.header) ++ t.data ++ rest := by
      rw [Hdr.data_congr (hold _ w.arr), hb]; simp [Token.bytes]
    have := data_after_write w' hb' hl
    rw [List.take_of_length_le (by omega), ← List.length_append, this]
  · obtain ⟨g1, g2, g3, g4, g5⟩ := h4 hp
    have hne : b.arr ≠ p.arr := by have := w.arr; omega
    rw [h2]
    constructor
    · refine Eq.trans (Hdr.data_congr ?_) (Hdr.data_congr (hold _ w.arr))
      exact Mem.bytes_write_ne hne
    · refine Eq.trans (Hdr.data_congr ?_) (Hdr.data_congr (hold _ w.arr))
      unfold Mem.append
      split_ifs
      · exact Mem.bytes_write_ne hne
      · exact Mem.fresh_old (by have := w.arr; simp; omega)

/-- C82 (append): appending `q` to the part of a push overwrites the bytes that follow that push in the script, as far as the memory behind the script
reaches; only if `q` does not fit there is the script left as it was. -/
theorem C82_append {m : Mem} {b : Hdr} (w : b.WF m) (pre : List Token) (t : Token) (rest : Bytes) (hv : ∀ u ∈ pre ++ [t], u.Valid)
    (hd : ∀ u ∈ pre ++ [t], Decodable u) (hb : b.data m = bytesOf pre ++ t.bytes ++ rest) (hp : t.IsPush) :
    ∃ p, (DecodePartsH m b).2.1[pre.length]? = some p ∧ ∀ (q : Bytes) (grow : Nat),
      (rest.length + (b.cap - b.len) < q.length → b.data ((DecodePartsH m b).1.append grow p q).1 = b.data m) ∧
      (q.length ≤ rest.length + (b.cap - b.len) →
        b.data ((DecodePartsH m b).1.append grow p q).1 = bytesOf pre ++ t.bytes ++ q.take rest.length ++ rest.drop q.length) := by
  obtain ⟨p, ops, h1, h2, h3, h4⟩ := part_header w pre t rest hv hd hb
  have hold : ∀ a < m.length, (m ++ ops : Mem).bytes a = m.bytes a := by
    intro a ha
    simp only [Mem.bytes, List.getD_eq_getElem?_getD]
    rw [List.getElem?_append_left ha]
  have hlen := w.len_data
  have hc := w.len
  have hcap := w.cap
  rw [hb] at hlen
  simp only [List.length_append, Token.bytes] at hlen
  have w' : b.WF (m ++ ops) := w.mono (by simp) (by rw [hold _ w.arr])
  refine ⟨p, h1, fun q grow => ⟨fun hq => ?_, fun hq => ?_⟩⟩
  · rw [h2, h3 hp, Mem.append_grows (by simp only [Hdr.window]; omega)]
    refine Eq.trans (Hdr.data_congr ?_) (Hdr.data_congr (hold _ w.arr))
    exact Mem.fresh_old (by have := w.arr; simp; omega)
  · rw [h2, h3 hp, Mem.append_fits (by simp only [Hdr.window]; omega)]
    simp only [Hdr.window]
    have hpos : b.off + ((bytesOf pre).length + t.header.length) + t.data.length = b.off + (bytesOf pre ++ t.bytes).length := by
      simp [Token.bytes]; omega
    rw [hpos]
    have hb' : b.data (m ++ ops) = bytesOf pre ++ t.bytes ++ rest := by rw [Hdr.data_congr (hold _ w.arr), hb]
    have hq' : b.off + (bytesOf pre ++ t.bytes).length + q.length ≤ ((m ++ ops : Mem).bytes b.arr).length := by
      have := w'.cap; simp [Token.bytes]; omega
    generalize hP : bytesOf pre ++ t.bytes = P at *
    have hPl : P.length + rest.length = b.len := by rw [← hP]; simp [Token.bytes]; omega
    have hbytes : ∀ i, i < b.len → ((m ++ ops : Mem).bytes b.arr)[b.off + i]? = (P ++ rest)[i]? := by
      intro i hi
      rw [← hb']
      simp only [Hdr.data, Hdr.view, List.getElem?_take, List.getElem?_drop, if_pos hi]
    apply List.ext_getElem?
    intro i
    simp only [Hdr.data, Hdr.view, List.getElem?_take, List.getElem?_drop]
    by_cases hi : i < b.len
    · rw [if_pos hi, Mem.bytes_write_eq w'.arr]
      have hbi := hbytes i hi
      simp only [List.getElem?_append, List.getElem?_take, List.getElem?_drop, List.length_take, List.length_append] at hbi ⊢
      have e0 : min (b.off + P.length) ((m ++ ops : Mem).bytes b.arr).length = b.off + P.length := by omega
      rw [e0]
      split_ifs at hbi ⊢ <;> first
        | omega
        | exact hbi
        | (congr 1; omega)
        | (rw [show b.off + P.length + q.length + (b.off + i - (b.off + P.length + q.length)) = b.off + i by omega, hbi]; congr 1; omega)
    · rw [if_neg hi, List.getElem?_eq_none]
      simp only [List.length_append, List.length_take, List.length_drop]; omega

theorem index_map {α β : Type} (f : α → β) (l : List α) (i : Nat) : index (l.map f) i = (index l i >>= fun a => Res.ok (f a)) := by
  unfold index
  rw [List.getElem?_map]
  cases l[i]? <;> rfl

/-- C82 (public key hash, value): on a script held in memory `GetPublicKeyHash` returns what the value-level model says, error and panic included. -/
theorem C82_public_key_hash_value {m : Mem} {s : Hdr} (w : s.WF m) :
    (GetPublicKeyHashH m s >>= fun r => Res.ok (r.2.data r.1)) = GetPublicKeyHash (some (s.data m)) := by
  unfold GetPublicKeyHashH GetPublicKeyHash
  dsimp only
  rw [w.len_data]
  by_cases c : s.len = 0
  · rw [if_pos c, if_pos c]; rfl
  rw [if_neg c, if_neg c, bind_assoc]
  refine bind_congr fun s0 => ?_
  by_cases c0 : s0 ≠ 0x76
  · rw [if_pos c0, if_pos c0]; rfl
  rw [if_neg c0, if_neg c0, bind_assoc]
  refine bind_congr_ok fun s1 hs1 => ?_
  by_cases c1 : s1 ≠ 0xa9
  · rw [if_pos c1, if_pos c1]; rfl
  rw [if_neg c1, if_neg c1, bind_assoc]
  have h2 : 2 ≤ s.len := by
    have := w.len_data
    unfold index at hs1
    cases hx : (s.data m)[1]? with
    | none => rw [hx] at hs1; cases hs1
    | some x => have := (List.getElem?_eq_some_iff.mp hx).1; omega
  have ht : s.sliceFrom 2 = .ok (s.window 2 (s.len - 2)) := by
    unfold Hdr.sliceFrom; rw [if_pos ⟨by omega, by omega⟩]; rfl
  rw [ht, Res.ok_bind]
  have hdat : (s.window 2 (s.len - 2)).data m = (s.data m).drop 2 := by
    rw [Hdr.data_window _ _ (by omega), List.take_of_length_le]
    simp [w.len_data]
  have hv := (C82_values (w.window (lo := 2) (n := s.len - 2) (by omega))).1
  rw [hdat] at hv
  unfold DecodeParts
  rw [← hv]
  generalize DecodePartsH m (s.window 2 (s.len - 2)) = r
  obtain ⟨m', parts, e⟩ := r
  cases e with
  | done =>
    dsimp only
    rw [bind_assoc, Res.ok_bind, index_map]
    rfl
  | notEnoughData => rfl
  | panic => rfl

/-- C82 (public key hash, shared): the hash returned for a pay-to-public-key-hash script lies in the script: overwriting the returned twenty bytes makes
the script pay to the new hash. -/
theorem C82_public_key_hash_shared {m : Mem} {s : Hdr} (w : s.WF m) (h : Bytes) (hl : h.length = 20) (hs : s.data m = p2pkh h) :
    ∃ m' p, GetPublicKeyHashH m s = .ok (m', p) ∧ p.data m' = h ∧ (∀ a < m.length, m'.bytes a = m.bytes a) ∧
      ∀ d : Bytes, d.length = 20 → s.data (m'.copy p d) = p2pkh d := by
  have hlen : s.len = 25 := by rw [← w.len_data, hs]; simp [p2pkh, hl]
  have ht : s.sliceFrom 2 = .ok (s.window 2 23) := by
    unfold Hdr.sliceFrom; rw [hlen, if_pos ⟨by omega, by omega⟩]; rfl
  have w2 : (s.window 2 23).WF m := w.window (by omega)
  have hdat : (s.window 2 23).data m = bytesOf [] ++ (Token.direct h).bytes ++ [0x88, 0xac] := by
    rw [Hdr.data_window _ _ (by omega), hs]
    simp [p2pkh, bytesOf, Token.bytes, Token.header, Token.data, hl, List.take_of_length_le]
  have hv : ∀ u ∈ ([] : List Token) ++ [.direct h], u.Valid := by simp [Token.Valid, hl]
  have hd : ∀ u ∈ ([] : List Token) ++ [.direct h], Decodable u := by simp [Decodable]
  obtain ⟨p, ops, g1, g2, g3, -⟩ := part_header w2 [] (.direct h) _ hv hd hdat
  have hp : p = s.window 3 20 := by
    have hk := w.len
    rw [g3 trivial, Hdr.window_window _ _ _ _ _ (by omega)]; simp [bytesOf, Token.header, Token.data, hl]
  have hfull := C82_values w2
  have hdec : DecodePartsFull ((s.window 2 23).data m) = ([h, [0x88], [0xac]], .done) := by
    have := decodePartsFull_tokens [.direct h, .op 0x88, .op 0xac] [] (by simp [Token.Valid, hl]) (by simp [Decodable])
    rw [hdat]
    simpa [bytesOf, payloads, Token.bytes, Token.header, Token.data, Token.payload, decodePartsFull_nil] using this
  have hend : (DecodePartsH m (s.window 2 23)).2.2 = .done := by rw [hdec] at hfull; exact congrArg Prod.snd hfull.1
  have hrun : GetPublicKeyHashH m s = .ok ((DecodePartsH m (s.window 2 23)).1, p) := by
    unfold GetPublicKeyHashH
    have i0 : index (s.data m) 0 = .ok 0x76 := by rw [hs]; rfl
    have i1 : index (s.data m) 1 = .ok 0xa9 := by rw [hs]; rfl
    have ip : index (DecodePartsH m (s.window 2 23)).2.1 0 = .ok p := by unfold index; rw [show (0 : Nat) = ([] : List Token).length from rfl, g1]
    rw [if_neg (by omega), i0, Res.ok_bind, if_neg (by simp), i1, Res.ok_bind, if_neg (by simp), ht, Res.ok_bind]
    generalize DecodePartsH m (s.window 2 23) = r at hend ip
    obtain ⟨m', parts, e⟩ := r
    dsimp only at hend ip ⊢
    subst hend
    dsimp only
    rw [ip]; rfl
  refine ⟨_, p, hrun, ?_, hfull.2, ?_⟩
  · rw [hp, Hdr.data_window _ _ (by omega), Hdr.data_congr (hfull.2 _ w.arr), hs]
    simp [p2pkh, hl]
  · intro d hdl
    have w' : s.WF (DecodePartsH m (s.window 2 23)).1 := w.mono (by rw [g2]; simp) (by rw [hfull.2 _ w.arr])
    have hs' : s.data (DecodePartsH m (s.window 2 23)).1 = [0x76, 0xa9, 0x14] ++ h ++ [0x88, 0xac] := by
      rw [Hdr.data_congr (hfull.2 _ w.arr), hs]; rfl
    have := data_after_write w' hs' (d := d) (by omega)
    rw [hp]
    simp only [Mem.copy, Hdr.window]
    rw [List.take_of_length_le (by omega)]
    exact this

/-! ## A concrete script -/

/-- Memory with the script `push(aa bb) OP_ADD push(cc)` in an array with two bytes behind it. -/
def pushMem : Mem := [[0x02, 0xaa, 0xbb, 0x93, 0x01, 0xcc, 0, 0]]
/-- see `pushMem` -/
def pushHdr : Hdr := ⟨0, 0, 6, 8⟩

/-- The hypotheses of the theorems above are met (with `pre := []`, `t := .direct [0xaa, 0xbb]`): appending three bytes to the first part makes the
script read `push(aa bb) 07 08 09`. -/
example : pushHdr.WF pushMem ∧ pushHdr.data pushMem = bytesOf [] ++ (Token.direct [0xaa, 0xbb]).bytes ++ [0x93, 0x01, 0xcc] ∧
    (DecodePartsH pushMem pushHdr).2.1.map (Hdr.data (DecodePartsH pushMem pushHdr).1) = [[0xaa, 0xbb], [0x93], [0xcc]] ∧
    (DecodePartsH pushMem pushHdr).2.1[0]? = some ⟨0, 1, 2, 7⟩ ∧
    pushHdr.data ((DecodePartsH pushMem pushHdr).1.append 0 ⟨0, 1, 2, 7⟩ [7, 8, 9]).1 = [0x02, 0xaa, 0xbb, 7, 8, 9] := by
  refine ⟨⟨?_, ?_, ?_⟩, ?_, ?_, ?_, ?_⟩ <;> decide +kernel

/-- A pay-to-public-key-hash script in memory. -/
example : (⟨0, 0, 25, 25⟩ : Hdr).WF [p2pkh (List.replicate 20 7)] ∧ (⟨0, 0, 25, 25⟩ : Hdr).data [p2pkh (List.replicate 20 7)] = p2pkh (List.replicate 20 7) ∧
    GetPublicKeyHashH [p2pkh (List.replicate 20 7)] ⟨0, 0, 25, 25⟩ =
      .ok ([p2pkh (List.replicate 20 7), [0x88], [0xac]], ⟨0, 3, 20, 22⟩) := by
  refine ⟨⟨?_, ?_, ?_⟩, ?_, ?_⟩ <;> decide +kernel

end Verif.Props
