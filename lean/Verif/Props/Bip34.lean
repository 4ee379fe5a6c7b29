import Verif.Spec.Bip34
import Verif.Props.Coinbase
/-!
# C111: the height in the coinbase script
-/
namespace Verif.Props
open Verif Spec

/-! ## The specification is sensible: every number has exactly one push -/

theorem scriptNumber_pos {b : Bytes} {n : Nat} (h0 : 0 < n) (h : scriptNumber b = n) : b ≠ [] ∧ leNat b = n ∧ n < 128 * 256 ^ (b.length - 1) := by
  unfold scriptNumber at h
  by_cases hb : b = []
  · rw [if_pos hb] at h; omega
  · rw [if_neg hb] at h
    by_cases hl : leNat b < 128 * 256 ^ (b.length - 1)
    · rw [if_pos hl] at h
      exact ⟨hb, by omega, by omega⟩
    · rw [if_neg hl] at h
      exfalso
      have : ((128 * 256 ^ (b.length - 1) : Nat) : Int) ≤ leNat b := by exact_mod_cast Nat.le_of_not_lt hl
      push_cast at this
      omega

theorem scriptNumber_leBytes {k n : Nat} (hk : 0 < k) (h : n < 128 * 256 ^ (k - 1)) : scriptNumber (leBytes k n) = n := by
  have hp : 128 * 256 ^ (k - 1) ≤ 256 ^ k := by
    obtain ⟨j, rfl⟩ : ∃ j, k = j + 1 := ⟨k - 1, by omega⟩
    rw [Nat.add_sub_cancel, Nat.pow_succ]; omega
  have e : leNat (leBytes k n) = n := by rw [leNat_leBytes, Nat.mod_eq_of_lt (by omega)]
  unfold scriptNumber
  rw [if_neg (by intro e; have := congrArg List.length e; simp at this; omega), e, leBytes_length, if_pos h]

/-- Every height has a push, and only one. -/
theorem pushesNumber_unique (n : Nat) (h : n < 2 ^ 32) : ∃ p, PushesNumber n p ∧ ∀ q, PushesNumber n q → q = p := by
  by_cases h0 : n = 0
  · refine ⟨[0x00], Or.inl ⟨h0, rfl⟩, ?_⟩
    rintro q (⟨_, e⟩ | ⟨a, _, _⟩ | ⟨a, _⟩)
    · exact e
    · omega
    · omega
  by_cases h16 : n ≤ 16
  · refine ⟨[UInt8.ofNat (0x50 + n)], Or.inr (Or.inl ⟨by omega, h16, rfl⟩), ?_⟩
    rintro q (⟨a, _⟩ | ⟨_, _, e⟩ | ⟨a, _⟩)
    · omega
    · exact e
    · omega
  · have ex : ∃ l, ∃ b : Bytes, b.length = l ∧ scriptNumber b = n :=
      ⟨5, leBytes 5 n, by simp, scriptNumber_leBytes (by omega) (by norm_num; omega)⟩
    classical
    obtain ⟨b, hb, hv⟩ := Nat.find_spec ex
    have hmin : ∀ b', scriptNumber b' = n → b.length ≤ b'.length := by
      intro b' hb'
      rw [hb]
      exact Nat.find_min' ex ⟨b', rfl, hb'⟩
    have h5 : b.length ≤ 5 := by
      have := hmin (leBytes 5 n) (scriptNumber_leBytes (by omega) (by norm_num; omega))
      simpa using this
    refine ⟨UInt8.ofNat b.length :: b, Or.inr (Or.inr ⟨by omega, b, ⟨hv, hmin⟩, by omega, rfl⟩), ?_⟩
    rintro q (⟨a, _⟩ | ⟨_, a, _⟩ | ⟨_, b', ⟨hv', hmin'⟩, _, e⟩)
    · omega
    · omega
    · have hl : b'.length = b.length := Nat.le_antisymm (hmin' b hv) (hmin b' hv')
      have e1 := (scriptNumber_pos (by omega) hv).2.1
      have e2 := (scriptNumber_pos (by omega) hv').2.1
      have : b' = b := by rw [← leBytes_leNat b', ← leBytes_leNat b, hl, e1, e2]
      rw [e, this]

example : PushesNumber 518847 [0x03, 0xbf, 0xea, 0x07] := by
  refine Or.inr (Or.inr ⟨by decide, [0xbf, 0xea, 0x07], ⟨by decide +kernel, ?_⟩, by decide, rfl⟩)
  intro b' h
  obtain ⟨_, _, h3⟩ := scriptNumber_pos (n := 518847) (by decide) h
  by_contra hc
  have : 256 ^ (b'.length - 1) ≤ 256 ^ 1 := Nat.pow_le_pow_right (by decide) (by simp at hc; omega)
  omega

/-! ## C111 -/

theorem height_iff (height : UInt32) (text e1 e2 : Bytes) :
    HeightOK height.toNat (coinbaseScript height text e1 e2) ↔ 2 ^ 15 ≤ height.toNat ∧ height.toNat < 2 ^ 23 := by
  have hs : coinbaseScript height text e1 e2 = (0x03 :: leBytes 3 height.toNat) ++ (text.take 84 ++ (hexDecodeIgnore e1 ++ hexDecodeIgnore e2)) := by
    simp [coinbaseScript]
  constructor
  · rintro ⟨p, hp, hpre⟩
    obtain ⟨r, hr⟩ := hpre
    rcases hp with ⟨_, e⟩ | ⟨h1, h2, e⟩ | ⟨h16, b, ⟨hv, hmin⟩, hl, e⟩
    · rw [e, hs] at hr; simp at hr
    · rw [e, hs] at hr
      simp only [List.cons_append, List.nil_append, List.cons.injEq] at hr
      have := congrArg UInt8.toNat hr.1
      rw [UInt8.toNat_ofNat', Nat.mod_eq_of_lt (by omega)] at this
      simp at this; omega
    · rw [e, hs] at hr
      simp only [List.cons_append, List.cons.injEq] at hr
      obtain ⟨hl3, hr⟩ := hr
      have h3 : b.length = 3 := by
        have := congrArg UInt8.toNat hl3
        rw [UInt8.toNat_ofNat', Nat.mod_eq_of_lt (by omega)] at this
        simpa using this
      obtain ⟨_, hle, hlt⟩ := scriptNumber_pos (by omega) hv
      rw [h3] at hlt
      refine ⟨?_, by norm_num at hlt ⊢; omega⟩
      by_contra hc
      have := hmin (leBytes 2 height.toNat) (scriptNumber_leBytes (by omega) (by norm_num at hc ⊢; omega))
      simp [h3] at this
  · rintro ⟨hlo, hhi⟩
    refine ⟨0x03 :: leBytes 3 height.toNat, Or.inr (Or.inr ⟨by omega, leBytes 3 height.toNat, ⟨scriptNumber_leBytes (by omega) (by norm_num at hhi ⊢; omega), ?_⟩, by simp, by simp⟩), ?_⟩
    · intro b' hb'
      obtain ⟨_, _, h3⟩ := scriptNumber_pos (by omega) hb'
      rw [leBytes_length]
      by_contra hc
      have : 256 ^ (b'.length - 1) ≤ 256 ^ 1 := Nat.pow_le_pow_right (by decide) (by omega)
      norm_num at hlo; omega
    · rw [hs]; exact List.prefix_append _ _

theorem height_read (height : UInt32) (text e1 e2 : Bytes) :
    heightRead (coinbaseScript height text e1 e2) = if height.toNat % 2 ^ 24 < 2 ^ 23 then ((height.toNat % 2 ^ 24 : Nat) : Int) else -((height.toNat % 2 ^ 24 : Nat) - 2 ^ 23 : Int) := by
  have h : ((coinbaseScript height text e1 e2).drop 1).take 3 = leBytes 3 height.toNat := by
    simp only [coinbaseScript, List.drop_succ_cons, List.drop_zero, List.append_assoc]
    rw [List.take_left' (by simp)]
  unfold heightRead scriptNumber
  rw [h, if_neg (by intro e; have := congrArg List.length e; simp at this), leNat_leBytes, leBytes_length]
  norm_num

/-- C111: the coinbase built from the parts is parsed as a transaction whose only input's script begins with the height as nodes demand (BIP34) exactly for the
heights 32768 to 8388607; and what a reader of script numbers finds there is the height below 2^23, a number that is not positive from there to 2^24, and so on with
period 2^24. -/
theorem C111_height (height : UInt32) (value : UInt64) (wc text wallet minerID e1 e2 lock sp : Bytes) (hw : NewP2PKHFromAddress wallet = .ok lock)
    (hwc : IsHex wc) (hn : (hexDecodeIgnore e1).length + (hexDecodeIgnore e2).length = 12) (hsz : wc.length + minerID.length + sp.length < 2 ^ 61) :
    ∃ c1 c2 tx inp script, GetCoinbaseParts height value wc text wallet minerID = .ok (c1, c2) ∧
      Transaction.NewFromBytes ⟨BuildCoinbase c1 c2 e1 e2, sp⟩ = .ok tx ∧ tx.Inputs = [inp] ∧ inp.UnlockingScript = some script ∧
      (HeightOK height.toNat script ↔ 2 ^ 15 ≤ height.toNat ∧ height.toNat < 2 ^ 23) ∧
      heightRead script = if height.toNat % 2 ^ 24 < 2 ^ 23 then ((height.toNat % 2 ^ 24 : Nat) : Int) else -((height.toNat % 2 ^ 24 : Nat) - 2 ^ 23 : Int) := by
  obtain ⟨c1, c2, h1, h2, _⟩ := C59_coinbase height value wc text wallet minerID e1 e2 lock sp hw hwc hn hsz
  exact ⟨c1, c2, _, _, _, h1, h2, rfl, rfl, height_iff height text e1 e2, height_read height text e1 e2⟩

/-- C111, deviation: outside that range every coinbase the library builds, whatever the other arguments, is one that nodes refuse: no script with its beginning
passes for that height. -/
theorem C111_violated (height : UInt32) (text rest : Bytes) (h : height.toNat < 2 ^ 15 ∨ 2 ^ 23 ≤ height.toNat) :
    ∃ before, makeCoinbase1 height text = before ++ (0x03 :: leBytes 3 height.toNat) ++ text.take 84 ∧ before.length = 42 ∧
      ¬ HeightOK height.toNat ((0x03 :: leBytes 3 height.toNat) ++ text.take 84 ++ rest) := by
  refine ⟨leBytes 4 1 ++ [0x01] ++ List.replicate 32 0 ++ [0xff, 0xff, 0xff, 0xff] ++ VarInt (UInt64.ofNat (4 + min 84 text.length + 12)), ?_, ?_, ?_⟩
  · rw [makeCoinbase1_eq]
    simp only [List.append_assoc, List.cons_append]
  · have hlt : (UInt64.ofNat (4 + min 84 text.length + 12)).toNat = 4 + min 84 text.length + 12 := by
      rw [UInt64.toNat_ofNat', Nat.mod_eq_of_lt (by omega)]
    have h8 : UInt64.ofNat (4 + min 84 text.length + 12) < 0xfd := by
      rw [UInt64.lt_iff_toNat_lt, hlt, show (0xfd : UInt64).toNat = 253 from rfl]; omega
    unfold VarInt
    rw [if_pos h8]
    simp
  · intro hc
    have e : (0x03 :: leBytes 3 height.toNat) ++ text.take 84 ++ rest = coinbaseScript height text (hexEncode rest) [] := by
      simp [coinbaseScript, hexDecodeIgnore_encode, show hexDecodeIgnore [] = [] from rfl]
    rw [e] at hc
    have := (height_iff height text _ _).mp hc
    omega

example : HeightOK 518847 (coinbaseScript 518847 b!"/Simon/" b!"434790f7dbde" b!"a34300000102") := (height_iff 518847 _ _ _).mpr (by decide)
example : ¬ HeightOK 1 (coinbaseScript 1 b!"/Simon/" b!"434790f7dbde" b!"a34300000102") := fun h => absurd ((height_iff 1 _ _ _).mp h) (by decide)
example : heightRead (coinbaseScript 8388613 [] [] []) = -5 := by decide +kernel

end Verif.Props
