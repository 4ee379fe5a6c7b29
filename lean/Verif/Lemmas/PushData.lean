import Verif.Model.PushData
import Verif.Spec.Tokens
import Verif.Lemmas.Basic
/-! # Lemmas on DecodeParts / EncodeParts -/
namespace Verif
open Spec Op

theorem leBytes_one (n : Nat) (h : n < 256) : leBytes 1 n = [UInt8.ofNat n] := by
  simp [leBytes, Nat.mod_eq_of_lt h]

theorem sub_append (h d rest : Bytes) : sub (h ++ d ++ rest) h.length (h.length + d.length) = some d := by
  unfold sub
  rw [if_pos (by simp)]
  rw [show h.length + d.length = (h ++ d).length by simp, List.take_left]
  simp

theorem decodeStep_token (t : Token) (rest : Bytes) (hv : t.Valid) (hd : Decodable t) :
    decodeStep (t.bytes ++ rest) = .ok (t.payload, rest) := by
  have hdrop : ∀ h d : Bytes, (h ++ d ++ rest).drop (h.length + d.length) = rest := by
    intro h d; rw [show h.length + d.length = (h ++ d).length by simp, List.drop_left]
  cases t with
  | op o =>
    simp only [Token.Valid, UInt8.lt_iff_toNat_lt] at hv
    have h1 : o ≠ OpPUSHDATA1 := by rintro rfl; revert hv; decide
    have h2 : o ≠ OpPUSHDATA2 := by rintro rfl; revert hv; decide
    have h3 : o ≠ OpPUSHDATA4 := by rintro rfl; revert hv; decide
    have h4 : ¬ (o ≥ 1 ∧ o ≤ 0x4e) := by
      simp only [ge_iff_le, UInt8.le_iff_toNat_le]
      rcases hv with rfl | hv
      · decide
      · simp at hv ⊢; omega
    simp [Token.bytes, Token.header, Token.data, Token.payload, decodeStep, h1, h2, h3, h4]
  | direct d =>
    simp only [Token.Valid] at hv
    have hn : (UInt8.ofNat d.length).toNat = d.length := by simp; omega
    have h1 : UInt8.ofNat d.length ≠ OpPUSHDATA1 := by intro h; have := congrArg UInt8.toNat h; simp [OpPUSHDATA1] at this; omega
    have h2 : UInt8.ofNat d.length ≠ OpPUSHDATA2 := by intro h; have := congrArg UInt8.toNat h; simp [OpPUSHDATA2] at this; omega
    have h3 : UInt8.ofNat d.length ≠ OpPUSHDATA4 := by intro h; have := congrArg UInt8.toNat h; simp [OpPUSHDATA4] at this; omega
    have h4 : UInt8.ofNat d.length ≥ 1 ∧ UInt8.ofNat d.length ≤ 0x4e := by
      simp only [ge_iff_le, UInt8.le_iff_toNat_le, hn]; simp; omega
    have hhi : (1 + UInt8.ofNat d.length).toNat = 1 + d.length := by simp; omega
    have hs := sub_append [UInt8.ofNat d.length] d rest
    have hd' := hdrop [UInt8.ofNat d.length] d
    simp only [List.length_cons, List.length_nil, Nat.zero_add] at hs hd'
    simp only [Token.bytes, Token.header, Token.data, Token.payload]
    simp only [List.cons_append, List.nil_append] at hs hd' ⊢
    simp only [decodeStep, if_neg h1, if_neg h2, if_neg h3, if_pos h4, hhi]
    rw [if_neg (by simp; omega), hs, hd']
  | pd1 d =>
    simp only [Token.Valid] at hv
    have hb := leBytes_one d.length (by omega)
    have hn : (UInt8.ofNat d.length).toNat = d.length := by simp; omega
    have hhi : (2 + (UInt8.ofNat d.length).toUInt64).toNat = 2 + d.length := by simp; omega
    have hs := sub_append [0x4c, UInt8.ofNat d.length] d rest
    have hd' := hdrop [0x4c, UInt8.ofNat d.length] d
    simp only [List.length_cons, List.length_nil, Nat.zero_add] at hs hd'
    simp only [Token.bytes, Token.header, Token.data, Token.payload, hb]
    simp only [List.cons_append, List.nil_append] at hs hd' ⊢
    simp only [decodeStep, OpPUSHDATA1, if_true]
    rw [if_neg (by simp)]
    simp only [List.getD_cons_succ, List.getD_cons_zero, hhi]
    rw [if_neg (by simp; omega), hs, hd']
  | pd2 d =>
    simp only [Token.Valid] at hv
    simp only [Decodable] at hd
    have hl : ((leBytes 2 d.length ++ d ++ rest).take 2) = leBytes 2 d.length := by
      rw [List.append_assoc, List.take_append_of_le_length (by simp), List.take_of_length_le (by simp)]
    have hn : leNat (leBytes 2 d.length) = d.length := by rw [leNat_leBytes, Nat.mod_eq_of_lt]; omega
    have hhi : (3 + UInt16.ofNat d.length).toNat = 3 + d.length := by simp; omega
    have hs := sub_append (0x4d :: leBytes 2 d.length) d rest
    have hd' := hdrop (0x4d :: leBytes 2 d.length) d
    simp only [List.length_cons, leBytes_length] at hs hd'
    simp only [Token.bytes, Token.header, Token.data, Token.payload]
    simp only [List.cons_append] at hs hd' ⊢
    simp only [decodeStep, OpPUSHDATA1, OpPUSHDATA2, if_true]
    rw [if_neg (by decide), if_neg (by simp)]
    simp only [List.drop_succ_cons, List.drop_zero, hl, hn, hhi]
    rw [if_neg (by simp; omega), hs, hd']
  | pd4 d =>
    simp only [Token.Valid] at hv
    simp only [Decodable] at hd
    have hl : ((leBytes 4 d.length ++ d ++ rest).take 4) = leBytes 4 d.length := by
      rw [List.append_assoc, List.take_append_of_le_length (by simp), List.take_of_length_le (by simp)]
    have hn : leNat (leBytes 4 d.length) = d.length := by rw [leNat_leBytes, Nat.mod_eq_of_lt]; omega
    have hhi : (5 + UInt32.ofNat d.length).toNat = 5 + d.length := by simp; omega
    have hs := sub_append (0x4e :: leBytes 4 d.length) d rest
    have hd' := hdrop (0x4e :: leBytes 4 d.length) d
    simp only [List.length_cons, leBytes_length] at hs hd'
    simp only [Token.bytes, Token.header, Token.data, Token.payload]
    simp only [List.cons_append] at hs hd' ⊢
    simp only [decodeStep, OpPUSHDATA1, OpPUSHDATA2, OpPUSHDATA4, if_true]
    rw [if_neg (by decide), if_neg (by decide), if_neg (by simp)]
    simp only [List.drop_succ_cons, List.drop_zero, hl, hn, hhi]
    rw [if_neg (by simp; omega), hs, hd']

theorem sub_ok {b : Bytes} {lo hi : Nat} (h1 : lo ≤ hi) (h2 : hi ≤ b.length) : sub b lo hi = some ((b.take hi).drop lo) := by
  simp [sub, h1, h2]

theorem truncated_of {t : Token} (hp : t.IsPush) (hv : t.Valid) {b more : Bytes} (hb : b ≠ []) (hm : more ≠ []) (h : t.bytes = b ++ more) :
    Truncated b := ⟨hb, t, hp, hv, more, hm, h⟩

theorem take_drop_split (b : Bytes) {lo hi : Nat} (h : lo ≤ hi) : b = b.take lo ++ (b.take hi).drop lo ++ b.drop hi := by
  have h1 : b.take hi = b.take lo ++ (b.take hi).drop lo := by
    conv_lhs => rw [← List.take_append_drop lo (b.take hi)]
    rw [List.take_take, Nat.min_eq_left h]
  conv_lhs => rw [← List.take_append_drop hi b, h1]

/-- Everything `decodeStep` can do. -/
theorem decodeStep_cases (b : Bytes) :
    (b = [] ∧ decodeStep b = .error .done) ∨
    (∃ t rest, Token.Valid t ∧ Decodable t ∧ b = t.bytes ++ rest ∧ decodeStep b = .ok (t.payload, rest)) ∨
    (Truncated b ∧ ¬ BadHeader b ∧ decodeStep b = .error .notEnoughData) ∨
    (BadHeader b ∧ decodeStep b = .error .panic) := by
  rcases b with _ | ⟨b0, r⟩
  · left; exact ⟨rfl, rfl⟩
  right
  have hb0 := b0.toNat_lt
  by_cases c1 : b0 = OpPUSHDATA1
  · -- OP_PUSHDATA1
    have nb : ¬ BadHeader (b0 :: r) := by
      rw [c1]; rintro (⟨lb, rest, h, _⟩ | ⟨lb, rest, h, _⟩) <;> injection h with h _ <;> revert h <;> decide
    rcases r with _ | ⟨l, r⟩
    · right; left
      refine ⟨?_, nb, by subst c1; rfl⟩
      refine truncated_of (t := .pd1 []) trivial (by simp [Token.Valid]) (by simp) (more := [0]) (by simp) ?_
      subst c1; rfl
    · by_cases hl : r.length < l.toNat
      · right; left
        refine ⟨?_, nb, ?_⟩
        · refine truncated_of (t := .pd1 (r ++ List.replicate (l.toNat - r.length) 0)) trivial ?_ (by simp)
            (more := List.replicate (l.toNat - r.length) 0) ?_ ?_
          · have := l.toNat_lt; simp [Token.Valid]; omega
          · intro h; have := congrArg List.length h; simp at this; omega
          · have hlen : (r ++ List.replicate (l.toNat - r.length) 0).length = l.toNat := by simp; omega
            simp only [Token.bytes, Token.header, Token.data, hlen]
            rw [leBytes_one _ l.toNat_lt]; subst c1; simp [OpPUSHDATA1]
        · subst c1
          have hhi : (2 + l.toUInt64).toNat = 2 + l.toNat := by have := l.toNat_lt; simp; omega
          simp only [decodeStep, if_true]
          rw [if_neg (by simp)]
          simp only [List.getD_cons_succ, List.getD_cons_zero, hhi]
          rw [if_pos (by simp; omega)]
      · left
        have hsplit := List.take_append_drop l.toNat r
        have hlen : (r.take l.toNat).length = l.toNat := by rw [List.length_take]; omega
        have hbytes : b0 :: l :: r = (Token.pd1 (r.take l.toNat)).bytes ++ r.drop l.toNat := by
          simp only [Token.bytes, Token.header, Token.data, hlen]
          rw [leBytes_one _ l.toNat_lt]; subst c1; simp [OpPUSHDATA1]
        refine ⟨.pd1 (r.take l.toNat), _, ?_, trivial, hbytes, ?_⟩
        · have := l.toNat_lt; simp [Token.Valid]; omega
        · rw [hbytes]; apply decodeStep_token
          · have := l.toNat_lt; simp [Token.Valid]; omega
          · trivial
  by_cases c2 : b0 = OpPUSHDATA2
  · by_cases hr : r.length < 2
    · right; left
      refine ⟨?_, ?_, ?_⟩
      · obtain ⟨x, hx⟩ : ∃ x : Bytes, leBytes 2 (leNat r) = r ++ x ∧ x ≠ [] := by
          match r, hr with
          | [], _ => exact ⟨_, rfl, by simp [leBytes]⟩
          | [a], _ =>
            refine ⟨[0], ?_, by simp⟩
            have := leBytes_leNat [a, 0]
            simpa [leNat] using this
        have hlt := leNat_lt r
        have hlt2 : leNat r < 2 ^ 16 := lt_of_lt_of_le hlt (by calc 256 ^ r.length ≤ 256 ^ 2 := Nat.pow_le_pow_right (by omega) (by omega)
            _ = 2 ^ 16 := by norm_num)
        refine truncated_of (t := .pd2 (List.replicate (leNat r) 0)) trivial ?_ (by simp)
          (more := x ++ List.replicate (leNat r) 0) ?_ ?_
        · simpa [Token.Valid] using hlt2
        · intro h; have := (List.append_eq_nil_iff.mp h).1; exact hx.2 this
        · simp only [Token.bytes, Token.header, Token.data, List.length_replicate]
          subst c2; simp [hx.1, OpPUSHDATA2]
      · rw [c2]; rintro (⟨lb, rest, h, hl, _⟩ | ⟨lb, rest, h, _⟩)
        · injection h with _ h; have := congrArg List.length h; simp at this; omega
        · injection h with h _; revert h; decide
      · subst c2
        simp only [decodeStep, if_true]
        rw [if_neg (by decide), if_pos (by simp; omega)]
    · obtain ⟨lb, body, hlb, rfl⟩ : ∃ lb body : Bytes, lb.length = 2 ∧ r = lb ++ body :=
        ⟨r.take 2, r.drop 2, by rw [List.length_take]; omega, (List.take_append_drop 2 r).symm⟩
      have hlt := leNat_lt lb
      rw [hlb] at hlt
      have htake : ((lb ++ body).take 2) = lb := by rw [← hlb, List.take_left]
      by_cases hbad : 65533 ≤ leNat lb
      · right; right
        refine ⟨Or.inl ⟨lb, body, by rw [c2]; rfl, hlb, hbad⟩, ?_⟩
        have hhi : (3 + UInt16.ofNat (leNat lb)).toNat = leNat lb - 65533 := by simp; omega
        subst c2
        simp only [decodeStep, if_true]
        rw [if_neg (by decide), if_neg (by simp; omega)]
        simp only [List.drop_succ_cons, List.drop_zero, htake, hhi]
        rw [if_neg (by simp; omega)]
        rw [show sub (OpPUSHDATA2 :: (lb ++ body)) 3 (leNat lb - 65533) = none by unfold sub; rw [if_neg (by omega)]]
      · have hhi : (3 + UInt16.ofNat (leNat lb)).toNat = 3 + leNat lb := by simp; omega
        by_cases hl : body.length < leNat lb
        · right; left
          refine ⟨?_, ?_, ?_⟩
          · refine truncated_of (t := .pd2 (body ++ List.replicate (leNat lb - body.length) 0)) trivial ?_ (by simp)
              (more := List.replicate (leNat lb - body.length) 0) ?_ ?_
            · simp [Token.Valid]; omega
            · intro h; have := congrArg List.length h; simp at this; omega
            · have hlen : (body ++ List.replicate (leNat lb - body.length) 0).length = leNat lb := by simp; omega
              simp only [Token.bytes, Token.header, Token.data, hlen]
              have := leBytes_leNat lb
              rw [hlb] at this
              subst c2; simp [this, OpPUSHDATA2]
          · rw [c2]; rintro (⟨lb', rest, h, hl', hb'⟩ | ⟨lb', rest, h, _⟩)
            · injection h with _ h
              have := (List.append_inj h (by omega)).1
              subst this; omega
            · injection h with h _; revert h; decide
          · subst c2
            simp only [decodeStep, if_true]
            rw [if_neg (by decide), if_neg (by simp; omega)]
            simp only [List.drop_succ_cons, List.drop_zero, htake, hhi]
            rw [if_pos (by simp; omega)]
        · left
          have hlen : (body.take (leNat lb)).length = leNat lb := by rw [List.length_take]; omega
          have hbytes : b0 :: (lb ++ body) = (Token.pd2 (body.take (leNat lb))).bytes ++ body.drop (leNat lb) := by
            simp only [Token.bytes, Token.header, Token.data, hlen]
            have := leBytes_leNat lb
            rw [hlb] at this
            subst c2; simp [this, OpPUSHDATA2]
          have hv : (Token.pd2 (body.take (leNat lb))).Valid := by simp only [Token.Valid, hlen]; omega
          have hd : Decodable (Token.pd2 (body.take (leNat lb))) := by simp only [Decodable, hlen]; omega
          exact ⟨_, _, hv, hd, hbytes, by rw [hbytes]; exact decodeStep_token _ _ hv hd⟩
  by_cases c3 : b0 = OpPUSHDATA4
  · by_cases hr : r.length < 4
    · right; left
      refine ⟨?_, ?_, ?_⟩
      · obtain ⟨x, hx⟩ : ∃ x : Bytes, leBytes 4 (leNat r) = r ++ x ∧ x ≠ [] := by
          match r, hr with
          | [], _ => exact ⟨_, rfl, by simp [leBytes]⟩
          | [a], _ => exact ⟨[0,0,0], by simpa [leNat] using leBytes_leNat [a, 0,0,0], by simp⟩
          | [a,b], _ => exact ⟨[0,0], by simpa [leNat] using leBytes_leNat [a,b,0,0], by simp⟩
          | [a,b,c], _ => exact ⟨[0], by simpa [leNat] using leBytes_leNat [a,b,c,0], by simp⟩
        have hlt := leNat_lt r
        have hlt2 : leNat r < 2 ^ 32 := lt_of_lt_of_le hlt (by calc 256 ^ r.length ≤ 256 ^ 4 := Nat.pow_le_pow_right (by omega) (by omega)
            _ = 2 ^ 32 := by norm_num)
        refine truncated_of (t := .pd4 (List.replicate (leNat r) 0)) trivial ?_ (by simp)
          (more := x ++ List.replicate (leNat r) 0) ?_ ?_
        · simpa [Token.Valid] using hlt2
        · intro h; have := (List.append_eq_nil_iff.mp h).1; exact hx.2 this
        · simp only [Token.bytes, Token.header, Token.data, List.length_replicate]
          subst c3; simp [hx.1, OpPUSHDATA4]
      · rw [c3]; rintro (⟨lb, rest, h, _⟩ | ⟨lb, rest, h, hl, _⟩)
        · injection h with h _; revert h; decide
        · injection h with _ h; have := congrArg List.length h; simp at this; omega
      · subst c3
        simp only [decodeStep, if_true]
        rw [if_neg (by decide), if_neg (by decide), if_pos (by simp; omega)]
    · obtain ⟨lb, body, hlb, rfl⟩ : ∃ lb body : Bytes, lb.length = 4 ∧ r = lb ++ body :=
        ⟨r.take 4, r.drop 4, by rw [List.length_take]; omega, (List.take_append_drop 4 r).symm⟩
      have hlt := leNat_lt lb
      rw [hlb] at hlt
      have htake : ((lb ++ body).take 4) = lb := by rw [← hlb, List.take_left]
      by_cases hbad : 2 ^ 32 - 5 ≤ leNat lb
      · right; right
        refine ⟨Or.inr ⟨lb, body, by rw [c3]; rfl, hlb, hbad⟩, ?_⟩
        have hhi : (5 + UInt32.ofNat (leNat lb)).toNat = leNat lb - (2 ^ 32 - 5) := by simp; omega
        subst c3
        simp only [decodeStep, if_true]
        rw [if_neg (by decide), if_neg (by decide), if_neg (by simp; omega)]
        simp only [List.drop_succ_cons, List.drop_zero, htake, hhi]
        rw [if_neg (by simp; omega)]
        rw [show sub (OpPUSHDATA4 :: (lb ++ body)) 5 (leNat lb - (2 ^ 32 - 5)) = none by unfold sub; rw [if_neg (by omega)]]
      · have hhi : (5 + UInt32.ofNat (leNat lb)).toNat = 5 + leNat lb := by simp; omega
        by_cases hl : body.length < leNat lb
        · right; left
          refine ⟨?_, ?_, ?_⟩
          · refine truncated_of (t := .pd4 (body ++ List.replicate (leNat lb - body.length) 0)) trivial ?_ (by simp)
              (more := List.replicate (leNat lb - body.length) 0) ?_ ?_
            · simp [Token.Valid]; omega
            · intro h; have := congrArg List.length h; simp at this; omega
            · have hlen : (body ++ List.replicate (leNat lb - body.length) 0).length = leNat lb := by simp; omega
              simp only [Token.bytes, Token.header, Token.data, hlen]
              have := leBytes_leNat lb
              rw [hlb] at this
              subst c3; simp [this, OpPUSHDATA4]
          · rw [c3]; rintro (⟨lb', rest, h, _⟩ | ⟨lb', rest, h, hl', hb'⟩)
            · injection h with h _; revert h; decide
            · injection h with _ h
              have := (List.append_inj h (by omega)).1
              subst this; omega
          · subst c3
            simp only [decodeStep, if_true]
            rw [if_neg (by decide), if_neg (by decide), if_neg (by simp; omega)]
            simp only [List.drop_succ_cons, List.drop_zero, htake, hhi]
            rw [if_pos (by simp; omega)]
        · left
          have hlen : (body.take (leNat lb)).length = leNat lb := by rw [List.length_take]; omega
          have hbytes : b0 :: (lb ++ body) = (Token.pd4 (body.take (leNat lb))).bytes ++ body.drop (leNat lb) := by
            simp only [Token.bytes, Token.header, Token.data, hlen]
            have := leBytes_leNat lb
            rw [hlb] at this
            subst c3; simp [this, OpPUSHDATA4]
          have hv : (Token.pd4 (body.take (leNat lb))).Valid := by simp only [Token.Valid, hlen]; omega
          have hd : Decodable (Token.pd4 (body.take (leNat lb))) := by simp only [Decodable, hlen]; omega
          exact ⟨_, _, hv, hd, hbytes, by rw [hbytes]; exact decodeStep_token _ _ hv hd⟩
  have nb : ¬ BadHeader (b0 :: r) := by
    rintro (⟨lb, rest, h, _⟩ | ⟨lb, rest, h, _⟩) <;> injection h with h _
    · exact c2 h
    · exact c3 h
  by_cases c4 : b0 ≥ 1 ∧ b0 ≤ 0x4e
  · have c4' := c4
    simp only [ge_iff_le, UInt8.le_iff_toNat_le] at c4'
    have hne1 : b0.toNat ≠ 0x4c := fun h => c1 (UInt8.toNat_inj.mp h)
    have hne2 : b0.toNat ≠ 0x4d := fun h => c2 (UInt8.toNat_inj.mp h)
    have hne3 : b0.toNat ≠ 0x4e := fun h => c3 (UInt8.toNat_inj.mp h)
    simp at c4'
    by_cases hl : r.length < b0.toNat
    · right; left
      refine ⟨?_, nb, ?_⟩
      · refine truncated_of (t := .direct (r ++ List.replicate (b0.toNat - r.length) 0)) trivial ?_ (by simp)
          (more := List.replicate (b0.toNat - r.length) 0) ?_ ?_
        · simp [Token.Valid]; omega
        · intro h; have := congrArg List.length h; simp at this; omega
        · have hlen : (r ++ List.replicate (b0.toNat - r.length) 0).length = b0.toNat := by simp; omega
          simp only [Token.bytes, Token.header, Token.data, hlen]
          simp
      · have hhi : (1 + b0).toNat = 1 + b0.toNat := by simp; omega
        simp only [decodeStep, if_neg c1, if_neg c2, if_neg c3, if_pos c4, hhi]
        rw [if_pos (by simp; omega)]
    · left
      have hlen : (r.take b0.toNat).length = b0.toNat := by rw [List.length_take]; omega
      have hbytes : b0 :: r = (Token.direct (r.take b0.toNat)).bytes ++ r.drop b0.toNat := by
        simp only [Token.bytes, Token.header, Token.data, hlen]
        simp
      have hv : (Token.direct (r.take b0.toNat)).Valid := by simp only [Token.Valid, hlen]; omega
      exact ⟨_, _, hv, trivial, hbytes, by rw [hbytes]; exact decodeStep_token _ _ hv trivial⟩
  · left
    have hv : (Token.op b0).Valid := by
      simp only [Token.Valid, UInt8.lt_iff_toNat_lt]
      simp only [ge_iff_le, UInt8.le_iff_toNat_le] at c4
      simp at c4 ⊢
      by_cases h0 : b0.toNat = 0
      · left; exact UInt8.toNat_inj.mp h0
      · right; exact c4 (by omega)
    have hbytes : b0 :: r = (Token.op b0).bytes ++ r := rfl
    exact ⟨_, _, hv, trivial, hbytes, by rw [hbytes]; exact decodeStep_token _ _ hv trivial⟩

theorem Token.bytes_ne_nil (t : Token) : t.bytes ≠ [] := by
  cases t <;> simp [Token.bytes, Token.header]

theorem Token.bytes_length_pos (t : Token) : 1 ≤ t.bytes.length := by
  cases t <;> simp [Token.bytes, Token.header]

/-- Enough fuel makes the loop independent of the fuel. -/
theorem decodeLoop_fuel (f : Nat) : ∀ (g : Nat) (b : Bytes), b.length < f → b.length < g → decodeLoop f b = decodeLoop g b := by
  induction f with
  | zero => intro g b h; omega
  | succ f ih =>
    intro g b hf hg
    obtain ⟨g, rfl⟩ : ∃ g', g = g' + 1 := ⟨g - 1, by omega⟩
    simp only [decodeLoop]
    rcases decodeStep_cases b with ⟨_, h⟩ | ⟨t, rest, _, _, hb, h⟩ | ⟨_, _, h⟩ | ⟨_, h⟩ <;> rw [h]
    have hl := Token.bytes_length_pos t
    have : rest.length < b.length := by rw [hb]; simp; omega
    simp only
    rw [ih g rest (by omega) (by omega)]

theorem decodePartsFull_nil : DecodePartsFull [] = ([], .done) := rfl

theorem decodePartsFull_token (t : Token) (rest : Bytes) (hv : t.Valid) (hd : Decodable t) :
    DecodePartsFull (t.bytes ++ rest) = (t.payload :: (DecodePartsFull rest).1, (DecodePartsFull rest).2) := by
  have hl := Token.bytes_length_pos t
  have e : DecodePartsFull (t.bytes ++ rest) = (t.payload :: (decodeLoop (t.bytes ++ rest).length rest).1,
      (decodeLoop (t.bytes ++ rest).length rest).2) := by
    unfold DecodePartsFull
    simp only [decodeLoop]
    rw [decodeStep_token t rest hv hd]
  rw [e]
  unfold DecodePartsFull
  rw [decodeLoop_fuel (t.bytes ++ rest).length (rest.length + 1) rest (by simp; omega) (by omega)]

theorem decodePartsFull_tokens (ts : List Token) (rest : Bytes) (hv : ∀ t ∈ ts, t.Valid) (hd : ∀ t ∈ ts, Decodable t) :
    DecodePartsFull (bytesOf ts ++ rest) = (payloads ts ++ (DecodePartsFull rest).1, (DecodePartsFull rest).2) := by
  induction ts with
  | nil => simp [bytesOf, payloads]
  | cons t ts ih =>
    have : bytesOf (t :: ts) ++ rest = t.bytes ++ (bytesOf ts ++ rest) := by simp [bytesOf]
    rw [this, decodePartsFull_token t _ (hv t (by simp)) (hd t (by simp)), ih (fun t h => hv t (by simp [h])) (fun t h => hd t (by simp [h]))]
    simp [payloads]

theorem decodePartsFull_err {rest : Bytes} {e : Ending} (h : decodeStep rest = .error e) : DecodePartsFull rest = ([], e) := by
  unfold DecodePartsFull; simp only [decodeLoop, h]

/-- Complete description of `DecodeParts`: the input is a sequence of complete tokens followed by nothing, a truncated push, or a
length header that overflows. -/
theorem decodePartsFull_cases (b : Bytes) : ∃ ts rest, (∀ t ∈ ts, t.Valid) ∧ (∀ t ∈ ts, Decodable t) ∧ b = bytesOf ts ++ rest ∧
    ((rest = [] ∧ DecodePartsFull b = (payloads ts, .done)) ∨
     (Truncated rest ∧ ¬ BadHeader rest ∧ DecodePartsFull b = (payloads ts, .notEnoughData)) ∨
     (BadHeader rest ∧ DecodePartsFull b = (payloads ts, .panic))) := by
  induction hn : b.length using Nat.strong_induction_on generalizing b with
  | _ n ih =>
    subst hn
    rcases decodeStep_cases b with ⟨rfl, h⟩ | ⟨t, rest, hv, hd, rfl, h⟩ | ⟨ht, hnb, h⟩ | ⟨hb, h⟩
    · exact ⟨[], [], by simp, by simp, rfl, Or.inl ⟨rfl, rfl⟩⟩
    · have hl := Token.bytes_length_pos t
      obtain ⟨ts, rest', i1, i2, i3, i4⟩ := ih rest.length (by simp; omega) rest rfl
      refine ⟨t :: ts, rest', ?_, ?_, ?_, ?_⟩
      · intro x hx; rcases List.mem_cons.mp hx with rfl | hx
        · exact hv
        · exact i1 x hx
      · intro x hx; rcases List.mem_cons.mp hx with rfl | hx
        · exact hd
        · exact i2 x hx
      · rw [i3]; simp [bytesOf]
      · rw [decodePartsFull_token t rest hv hd]
        rcases i4 with ⟨j1, j2⟩ | ⟨j1, j2, j3⟩ | ⟨j1, j2⟩
        · left; exact ⟨j1, by rw [j2]; rfl⟩
        · right; left; exact ⟨j1, j2, by rw [j3]; rfl⟩
        · right; right; exact ⟨j1, by rw [j2]; rfl⟩
    · exact ⟨[], b, by simp, by simp, rfl, Or.inr (Or.inl ⟨ht, hnb, decodePartsFull_err h⟩)⟩
    · exact ⟨[], b, by simp, by simp, rfl, Or.inr (Or.inr ⟨hb, decodePartsFull_err h⟩)⟩

theorem decodeParts_tokens (ts : List Token) (hv : ∀ t ∈ ts, t.Valid) (hd : ∀ t ∈ ts, Decodable t) :
    DecodeParts (bytesOf ts) = .ok (payloads ts) := by
  have := decodePartsFull_tokens ts [] hv hd
  simp only [List.append_nil, decodePartsFull_nil] at this
  simp [DecodeParts, this]

theorem decodeParts_ok {b : Bytes} {ps : List Bytes} (h : DecodeParts b = .ok ps) :
    ∃ ts, (∀ t ∈ ts, t.Valid) ∧ (∀ t ∈ ts, Decodable t) ∧ b = bytesOf ts ∧ ps = payloads ts := by
  obtain ⟨ts, rest, hv, hd, hb, hc⟩ := decodePartsFull_cases b
  unfold DecodeParts at h
  rcases hc with ⟨rfl, hc⟩ | ⟨_, _, hc⟩ | ⟨_, hc⟩ <;> rw [hc] at h <;> simp at h
  exact ⟨ts, hv, hd, by simpa using hb, h.symm⟩

theorem bytesOf_append (a b : List Token) : bytesOf (a ++ b) = bytesOf a ++ bytesOf b := by simp [bytesOf]
theorem payloads_append (a b : List Token) : payloads (a ++ b) = payloads a ++ payloads b := by simp [payloads]

/-- Decoding a decodable script followed by more tokens. -/
theorem decodeParts_append {s : Bytes} {ps : List Bytes} (h : DecodeParts s = .ok ps) (ts : List Token)
    (hv : ∀ t ∈ ts, t.Valid) (hd : ∀ t ∈ ts, Decodable t) : DecodeParts (s ++ bytesOf ts) = .ok (ps ++ payloads ts) := by
  obtain ⟨us, h1, h2, rfl, rfl⟩ := decodeParts_ok h
  rw [← bytesOf_append, ← payloads_append]
  apply decodeParts_tokens
  · intro t ht; rcases List.mem_append.mp ht with h | h
    · exact h1 t h
    · exact hv t h
  · intro t ht; rcases List.mem_append.mp ht with h | h
    · exact h2 t h
    · exact hd t h

/-! ## encoding -/

/-- The token `EncodeParts` writes for a part (an empty part becomes the opcode 0x00). -/
def tokenFor (d : Bytes) : Token :=
  if d.length = 0 then .op 0
  else if d.length ≤ 75 then .direct d
  else if d.length ≤ 0xFF then .pd1 d
  else if d.length ≤ 0xFFFF then .pd2 d
  else .pd4 d

theorem tokenFor_valid (d : Bytes) (h : d.length ≤ 0xFFFFFFFF) : (tokenFor d).Valid := by
  unfold tokenFor; split_ifs <;> simp [Token.Valid] <;> omega

theorem getPushDataPrefix_eq (d : Bytes) (h : d.length ≤ 0xFFFFFFFF) : GetPushDataPrefix d = .ok (tokenFor d).header := by
  unfold GetPushDataPrefix tokenFor
  by_cases h0 : d.length = 0
  · simp [h0, Token.header]
  · simp only [if_neg h0]
    split_ifs with h1 h2 h3
    · rfl
    · simp [Token.header, leBytes_one d.length (by omega)]
    · simp only [Token.header, putUint16, UInt16.toNat_ofNat', Res.ok.injEq, List.cons.injEq, true_and]
      rw [Nat.mod_eq_of_lt (by omega)]
    · simp only [Token.header, putUint32, UInt32.toNat_ofNat', Res.ok.injEq, List.cons.injEq, true_and]
      rw [Nat.mod_eq_of_lt (by omega)]

theorem tokenFor_bytes (d : Bytes) : (tokenFor d).bytes = (tokenFor d).header ++ d := by
  unfold tokenFor
  by_cases h0 : d.length = 0
  · have : d = [] := List.length_eq_zero_iff.mp h0
    subst this; rfl
  · rw [if_neg h0]; split_ifs <;> rfl

theorem tokenFor_payload (d : Bytes) (h : d ≠ []) : (tokenFor d).payload = d := by
  unfold tokenFor
  rw [if_neg (by simpa using h)]
  split_ifs <;> rfl

theorem encodeParts_ok_iff (ps : List Bytes) (b : Bytes) :
    EncodeParts ps = .ok b ↔ (∀ p ∈ ps, p.length ≤ 0xFFFFFFFF) ∧ b = bytesOf (ps.map tokenFor) := by
  induction ps generalizing b with
  | nil => simp [EncodeParts, bytesOf, eq_comm]
  | cons p ps ih =>
    simp only [EncodeParts]
    by_cases hp : p.length ≤ 0xFFFFFFFF
    · rw [getPushDataPrefix_eq p hp]
      simp only [Res.bind_eq_ok, Res.pure_eq, Res.ok.injEq, List.map_cons]
      constructor
      · rintro ⟨r, hr, rfl⟩
        obtain ⟨h1, rfl⟩ := (ih r).mp hr
        refine ⟨?_, ?_⟩
        · intro q hq; rcases List.mem_cons.mp hq with rfl | hq
          · exact hp
          · exact h1 q hq
        · simp [bytesOf, tokenFor_bytes]
      · rintro ⟨h1, rfl⟩
        refine ⟨_, (ih _).mpr ⟨fun q hq => h1 q (by simp [hq]), rfl⟩, ?_⟩
        simp [bytesOf, tokenFor_bytes]
    · have : ∃ e, GetPushDataPrefix p = .err e := by
        unfold GetPushDataPrefix
        simp only [if_neg (show ¬ p.length ≤ 75 by omega), if_neg (show ¬ p.length ≤ 0xFF by omega),
          if_neg (show ¬ p.length ≤ 0xFFFF by omega), if_neg hp]
        exact ⟨_, rfl⟩
      obtain ⟨e, he⟩ := this
      rw [he]
      simp only [reduceCtorEq, false_iff, not_and]
      intro h; exact absurd (h p (by simp)) hp

theorem encodeParts_not_panic (ps : List Bytes) : EncodeParts ps ≠ .panic := by
  induction ps with
  | nil => simp [EncodeParts]
  | cons p ps ih =>
    simp only [EncodeParts]
    split
    · simp only [ne_eq, Res.bind_eq_panic, not_or]
      exact ⟨ih, by simp⟩
    · simp

theorem encodeParts_err {ps : List Bytes} (h : ¬ ∀ p ∈ ps, p.length ≤ 0xFFFFFFFF) : ∃ e, EncodeParts ps = .err e := by
  rcases he : EncodeParts ps with b | e | _
  · exact absurd ((encodeParts_ok_iff ps b).mp he).1 h
  · exact ⟨e, rfl⟩
  · exact absurd he (encodeParts_not_panic ps)

end Verif
