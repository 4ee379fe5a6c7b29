import Verif.Lemmas.Basic
import Verif.Model.Address
import Mathlib.Data.List.Induction
/-! # Positional notation, base58 and `set58` -/
namespace Verif

/-! ## little-endian digit lists -/

/-- Value of a little-endian digit list. -/
def digVal (base : Nat) : List Nat → Nat
  | [] => 0
  | d :: ds => d + base * digVal base ds

theorem digitsLE_spec (base : Nat) (hb : 2 ≤ base) (fuel n : Nat) (h : n < base ^ fuel) :
    digVal base (digitsLE base fuel n) = n ∧ (∀ d ∈ digitsLE base fuel n, d < base) ∧
    (∀ d, (digitsLE base fuel n).getLast? = some d → d ≠ 0) := by
  induction fuel generalizing n with
  | zero => simp at h; subst h; simp [digitsLE, digVal]
  | succ fuel ih =>
    simp only [digitsLE]
    by_cases h0 : n = 0
    · simp [h0, digVal]
    · rw [if_neg h0]
      have hlt : n / base < base ^ fuel := by
        apply Nat.div_lt_of_lt_mul; rw [pow_succ] at h; rwa [Nat.mul_comm]
      obtain ⟨h1, h2, h3⟩ := ih (n / base) hlt
      refine ⟨?_, ?_, ?_⟩
      · simp only [digVal]; rw [h1]; exact Nat.mod_add_div n base
      · intro d hd
        rcases List.mem_cons.mp hd with rfl | hd
        · exact Nat.mod_lt _ (by omega)
        · exact h2 d hd
      · intro d hd
        rw [List.getLast?_cons] at hd
        rcases hl : (digitsLE base fuel (n / base)).getLast? with _ | x
        · rw [hl] at hd
          simp only [Option.getD_none, Option.some.injEq] at hd
          have hnil : digitsLE base fuel (n / base) = [] := List.getLast?_eq_none_iff.mp hl
          rw [hnil] at h1
          simp only [digVal] at h1
          subst hd
          intro hm
          have := Nat.mod_add_div n base
          rw [hm, ← h1] at this
          simp at this; omega
        · rw [hl] at hd
          simp only [Option.getD_some, Option.some.injEq] at hd
          subst hd
          exact h3 x hl

theorem digitsLE_log (base : Nat) (hb : 2 ≤ base) (n : Nat) : n < base ^ (n.log2 + 1) :=
  Nat.lt_of_lt_of_le (Nat.lt_log2_self) (Nat.pow_le_pow_left hb _)

/-- The digits of a number, with the fuel used everywhere in the model. -/
theorem digits_full (base : Nat) (hb : 2 ≤ base) (n : Nat) :
    digVal base (digitsLE base (n.log2 + 1) n) = n ∧ (∀ d ∈ digitsLE base (n.log2 + 1) n, d < base) ∧
    (∀ d, (digitsLE base (n.log2 + 1) n).getLast? = some d → d ≠ 0) :=
  digitsLE_spec base hb _ n (digitsLE_log base hb n)

/-- Digit lists without a zero top digit are determined by their value. -/
theorem digVal_inj (base : Nat) (hb : 2 ≤ base) : ∀ (a b : List Nat), (∀ d ∈ a, d < base) → (∀ d ∈ b, d < base) →
    (∀ d, a.getLast? = some d → d ≠ 0) → (∀ d, b.getLast? = some d → d ≠ 0) → digVal base a = digVal base b → a = b := by
  have nz : ∀ a : List Nat, a ≠ [] → (∀ d, a.getLast? = some d → d ≠ 0) → digVal base a ≠ 0 := by
    intro a
    induction a with
    | nil => intro h; exact absurd rfl h
    | cons x xs ih =>
      intro _ h
      simp only [digVal]
      cases xs with
      | nil =>
        have := h x rfl
        simp [digVal]; exact this
      | cons y ys =>
        have := ih (by simp) (by intro d hd; exact h d (by rw [List.getLast?_cons, hd]; rfl))
        have : 0 < digVal base (y :: ys) := Nat.pos_of_ne_zero this
        have : 0 < base * digVal base (y :: ys) := Nat.mul_pos (by omega) this
        omega
  intro a
  induction a with
  | nil =>
    intro b _ _ _ h h'
    by_contra hn
    exact nz b (fun e => hn e.symm) h (by rw [← h']; rfl)
  | cons x xs ih =>
    intro b hx hb' h1 h2 h
    cases b with
    | nil => exact absurd h (nz (x :: xs) (by simp) h1)
    | cons y ys =>
      simp only [digVal] at h
      have hxb := hx x (by simp)
      have hyb := hb' y (by simp)
      have m1 : (x + base * digVal base xs) % base = x := by rw [Nat.add_mul_mod_self_left, Nat.mod_eq_of_lt hxb]
      have m2 : (y + base * digVal base ys) % base = y := by rw [Nat.add_mul_mod_self_left, Nat.mod_eq_of_lt hyb]
      have e1 : x = y := by rw [← m1, h, m2]
      subst e1
      have e2 : digVal base xs = digVal base ys := Nat.eq_of_mul_eq_mul_left (by omega) (Nat.add_left_cancel h)
      congr 1
      apply ih ys (fun d hd => hx d (by simp [hd])) (fun d hd => hb' d (by simp [hd])) _ _ e2
      · intro d hd; exact h1 d (by rw [List.getLast?_cons, hd]; rfl)
      · intro d hd; exact h2 d (by rw [List.getLast?_cons, hd]; rfl)

/-! ## big-endian bytes -/

theorem beNat_append (a b : Bytes) : beNat (a ++ b) = beNat a * 256 ^ b.length + beNat b := by
  unfold beNat
  rw [List.foldl_append]
  generalize a.foldl (fun acc x => acc * 256 + x.toNat) 0 = v
  have : ∀ (b : Bytes) (v : Nat), b.foldl (fun acc x => acc * 256 + x.toNat) v = v * 256 ^ b.length + b.foldl (fun acc x => acc * 256 + x.toNat) 0 := by
    intro b
    induction b with
    | nil => intro v; simp
    | cons x xs ih =>
      intro v
      rw [List.foldl_cons, List.foldl_cons, ih (v * 256 + x.toNat), ih (0 * 256 + x.toNat), List.length_cons]
      ring
  exact this b v

theorem beNat_cons (x : UInt8) (b : Bytes) : beNat (x :: b) = x.toNat * 256 ^ b.length + beNat b := by
  have := beNat_append [x] b
  simpa [beNat] using this

@[simp] theorem beNat_nil : beNat [] = 0 := rfl

theorem beNat_lt (b : Bytes) : beNat b < 256 ^ b.length := by
  induction b with
  | nil => simp
  | cons x xs ih =>
    rw [beNat_cons, List.length_cons, pow_succ]
    have := x.toNat_lt
    nlinarith [Nat.pow_pos (n := xs.length) (show 0 < 256 by norm_num)]

theorem beNat_reverse (b : Bytes) : beNat b.reverse = leNat b := by
  induction b with
  | nil => rfl
  | cons x xs ih =>
    rw [List.reverse_cons, beNat_append, ih]
    simp [beNat, leNat]; ring

theorem beNat_inj {a b : Bytes} (hl : a.length = b.length) (h : beNat a = beNat b) : a = b := by
  have ha := beNat_reverse a.reverse
  have hb := beNat_reverse b.reverse
  rw [List.reverse_reverse] at ha hb
  rw [ha, hb] at h
  have l1 := leBytes_leNat a.reverse
  have l2 := leBytes_leNat b.reverse
  rw [List.length_reverse] at l1 l2
  rw [h, hl, l2] at l1
  exact (List.reverse_inj.mp l1).symm

theorem beNat_zeros (k : Nat) (b : Bytes) : beNat (List.replicate k 0 ++ b) = beNat b := by
  rw [beNat_append]
  have : beNat (List.replicate k 0) = 0 := by
    induction k with
    | zero => rfl
    | succ k ih => rw [List.replicate_succ, beNat_cons, ih]; simp
  rw [this]; simp

theorem digVal_bytes (b : Bytes) : digVal 256 (b.map UInt8.toNat) = leNat b := by
  induction b with
  | nil => rfl
  | cons x xs ih => simp [digVal, leNat, ih]

theorem mem_takeWhile_eq (z : UInt8) (b : Bytes) (x : UInt8) (h : x ∈ b.takeWhile (· == z)) : x = z := by
  induction b with
  | nil => simp at h
  | cons c cs ih =>
    rw [List.takeWhile_cons] at h
    split at h
    · rename_i hc
      rcases List.mem_cons.mp h with rfl | h
      · simpa using hc
      · exact ih h
    · simp at h

/-- Leading copies of a byte before something that does not begin with it. -/
theorem takeWhile_replicate (z : UInt8) (k : Nat) (t : Bytes) (h : t.head? ≠ some z) : ((List.replicate k z ++ t).takeWhile (· == z)).length = k := by
  induction k with
  | zero =>
    cases t with
    | nil => rfl
    | cons c cs =>
      have : (c == z) = false := by simpa using h
      simp [this]
  | succ k ih =>
    rw [List.replicate_succ, List.cons_append, List.takeWhile_cons, if_pos (by simp), List.length_cons, ih]

theorem split_zeros (z : UInt8) (b : Bytes) : b = List.replicate (b.takeWhile (· == z)).length z ++ b.dropWhile (· == z) := by
  conv_lhs => rw [← List.takeWhile_append_dropWhile (p := (· == z)) (l := b)]
  congr 1
  rw [List.eq_replicate_iff]
  refine ⟨rfl, ?_⟩
  intro x hx
  exact mem_takeWhile_eq z b x hx

theorem dropWhile_head (z : UInt8) (b : Bytes) (c : UInt8) (h : (b.dropWhile (· == z)).head? = some c) : c ≠ z := by
  have := List.head?_dropWhile_not (fun x => x == z) b
  rw [h] at this
  simpa using this

theorem bigBytes_beNat (b : Bytes) : bigBytes (beNat b) = b.dropWhile (· == 0) := by
  set t := b.dropWhile (· == 0) with ht
  have hv : beNat b = beNat t := by
    conv_lhs => rw [split_zeros 0 b]
    rw [beNat_zeros]
  unfold bigBytes
  have hd : digitsLE 256 ((beNat b).log2 + 1) (beNat b) = t.reverse.map UInt8.toNat := by
    obtain ⟨h1, h2, h3⟩ := digits_full 256 (by norm_num) (beNat b)
    apply digVal_inj 256 (by norm_num) _ _ h2 _ h3
    · intro d hd
      rw [List.getLast?_map, List.getLast?_reverse] at hd
      rcases hh : t.head? with _ | c
      · rw [hh] at hd; simp at hd
      · rw [hh] at hd
        simp only [Option.map_some, Option.some.injEq] at hd
        have := dropWhile_head 0 b c (by rw [← ht]; exact hh)
        intro e; apply this; apply UInt8.toNat_inj.mp; rw [hd, e]; rfl
    · rw [h1, digVal_bytes, ← beNat_reverse, List.reverse_reverse, hv]
    · intro d hd
      obtain ⟨x, _, rfl⟩ := List.mem_map.mp hd
      exact x.toNat_lt
  rw [hd, ← List.map_reverse, List.reverse_reverse, List.map_map]
  conv_rhs => rw [← List.map_id t]
  apply List.map_congr_left
  intro x _; simp

theorem bigBytes_noZero (n : Nat) : (bigBytes n).head? ≠ some 0 ∧ beNat (bigBytes n) = n := by
  obtain ⟨h1, h2, h3⟩ := digits_full 256 (by norm_num) n
  set ds := digitsLE 256 (n.log2 + 1) n with hds
  have hb : bigBytes n = (ds.map UInt8.ofNat).reverse := by rw [bigBytes, ← hds, List.map_reverse]
  have hmap : (ds.map UInt8.ofNat).map UInt8.toNat = ds := by
    rw [List.map_map]
    conv_rhs => rw [← List.map_id ds]
    apply List.map_congr_left
    intro d hd
    simp only [Function.comp, id]
    rw [UInt8.toNat_ofNat', Nat.mod_eq_of_lt (h2 d hd)]
  constructor
  · intro h
    rw [hb, List.head?_reverse, List.getLast?_map] at h
    rcases hl : ds.getLast? with _ | d
    · rw [hl] at h; simp at h
    · rw [hl] at h
      simp only [Option.map_some, Option.some.injEq] at h
      have hd := h3 d hl
      have hlt := h2 d (List.mem_of_getLast? hl)
      have := congrArg UInt8.toNat h
      rw [UInt8.toNat_ofNat', Nat.mod_eq_of_lt hlt] at this
      exact hd (by simpa using this)
  · rw [hb, beNat_reverse, ← digVal_bytes, hmap, h1]

/-! ## base58 -/

theorem char58_index : ∀ d : Fin 58, index58 (char58 d.val) = some d.val ∧ (char58 d.val = 49 ↔ d.val = 0) := by decide +kernel

theorem index58_some : ∀ (c : UInt8) (d : Nat), index58 c = some d → d < 58 ∧ char58 d = c := by
  have : ∀ c : UInt8, ∀ d, index58 c = some d → d < 58 ∧ char58 d = c := by
    intro c d h
    unfold index58 at h
    rw [List.findIdx?_eq_some_iff_getElem] at h
    obtain ⟨hlt, h1, _⟩ := h
    have hl : alphabet58.length = 58 := by decide
    refine ⟨by omega, ?_⟩
    unfold char58
    rw [List.getD_eq_getElem?_getD, List.getElem?_eq_getElem hlt]
    simpa using h1
  exact this

theorem value58_append (acc : Nat) (a b : Bytes) : value58 acc (a ++ b) = (value58 acc a).bind fun v => value58 v b := by
  induction a generalizing acc with
  | nil => rfl
  | cons c cs ih =>
    simp only [List.cons_append, value58]
    cases index58 c with
    | none => rfl
    | some d => exact ih _

theorem value58_ones (k : Nat) (s : Bytes) : value58 0 (List.replicate k 49 ++ s) = value58 0 s := by
  induction k with
  | zero => rfl
  | succ k ih =>
    rw [List.replicate_succ, List.cons_append, value58]
    have : index58 49 = some 0 := by decide +kernel
    rw [this]; exact ih

theorem value58_digits (ds : List Nat) (h : ∀ d ∈ ds, d < 58) : value58 0 ((ds.reverse).map char58) = some (digVal 58 ds) := by
  induction ds with
  | nil => rfl
  | cons d ds ih =>
    rw [List.reverse_cons, List.map_append, value58_append, ih (fun x hx => h x (by simp [hx]))]
    simp only [Option.bind_some, List.map_cons, List.map_nil, value58, digVal]
    rw [(char58_index ⟨d, h d (by simp)⟩).1]
    simp only [Option.some.injEq]; ring

theorem value58_mono {acc : Nat} {s : Bytes} {v : Nat} (h : value58 acc s = some v) : acc ≤ v := by
  induction s generalizing acc with
  | nil => simp [value58] at h; omega
  | cons c cs ih =>
    simp only [value58] at h
    cases hc : index58 c with
    | none => rw [hc] at h; simp at h
    | some d => rw [hc] at h; have := ih h; omega

/-- The digits of a base58 string. -/
theorem value58_some {s : Bytes} {v : Nat} (h : value58 0 s = some v) : ∃ ds : List Nat, (∀ d ∈ ds, d < 58) ∧ s = ds.reverse.map char58 ∧ digVal 58 ds = v := by
  induction s using List.reverseRecOn generalizing v with
  | nil => simp [value58] at h; subst h; exact ⟨[], by simp, rfl, rfl⟩
  | append_singleton s c ih =>
    rw [value58_append] at h
    rcases hv : value58 0 s with _ | w
    · rw [hv] at h; simp at h
    · rw [hv] at h
      simp only [Option.bind_some, value58] at h
      rcases hc : index58 c with _ | d
      · rw [hc] at h; simp at h
      · rw [hc] at h
        simp only [Option.some.injEq] at h
        obtain ⟨ds, h1, h2, h3⟩ := ih hv
        obtain ⟨hd, hch⟩ := index58_some c d hc
        refine ⟨d :: ds, ?_, ?_, ?_⟩
        · intro x hx; rcases List.mem_cons.mp hx with rfl | hx
          · exact hd
          · exact h1 x hx
        · simp [h2, hch]
        · simp only [digVal, h3]; omega

theorem value58_base58Encode (b : Bytes) : value58 0 (base58Encode b) = some (beNat b) := by
  unfold base58Encode
  simp only
  have : (b.takeWhile (· == 0)).map (fun _ => (49 : UInt8)) = List.replicate (b.takeWhile (· == 0)).length 49 := List.map_const'
  rw [this, value58_ones, value58_digits _ (digits_full 58 (by norm_num) _).2.1, (digits_full 58 (by norm_num) _).1]

theorem encode_takeWhile (b : Bytes) : ((base58Encode b).takeWhile (· == 49)).length = (b.takeWhile (· == 0)).length := by
  unfold base58Encode
  simp only
  set k := (b.takeWhile (· == 0)).length with hk
  have : (b.takeWhile (· == 0)).map (fun _ => (49 : UInt8)) = List.replicate k 49 := List.map_const'
  rw [this]
  have ht := takeWhile_replicate 49
  apply ht
  rw [List.map_reverse, List.head?_reverse, List.getLast?_map]
  obtain ⟨_, h2, h3⟩ := digits_full 58 (by norm_num) (beNat b)
  rcases hl : (digitsLE 58 ((beNat b).log2 + 1) (beNat b)).getLast? with _ | d
  · simp
  · simp only [Option.map_some, ne_eq, Option.some.injEq]
    rw [(char58_index ⟨d, h2 d (List.mem_of_getLast? hl)⟩).2]
    exact h3 d hl

/-- `base58.Decode` inverts `base58.Encode`. -/
theorem base58_roundtrip (b : Bytes) : base58Decode (base58Encode b) = b := by
  unfold base58Decode
  rw [value58_base58Encode]
  simp only
  rw [bigBytes_beNat]
  have : ((base58Encode b).takeWhile (· == 49)).map (fun _ => (0 : UInt8)) = List.replicate (b.takeWhile (· == 0)).length 0 := by
    rw [← encode_takeWhile]; exact List.map_const'
  rw [this]
  exact (split_zeros 0 b).symm

theorem base58Encode_inj {a b : Bytes} (h : base58Encode a = base58Encode b) : a = b := by
  rw [← base58_roundtrip a, h, base58_roundtrip]

/-- ... and conversely on valid base58 strings. -/
theorem base58_roundtrip' {s : Bytes} {v : Nat} (h : value58 0 s = some v) : base58Encode (base58Decode s) = s := by
  unfold base58Decode
  rw [h]
  simp only
  set k := (s.takeWhile (· == 49)).length with hk
  have e1 : (s.takeWhile (· == 49)).map (fun _ => (0 : UInt8)) = List.replicate k 0 := List.map_const'
  rw [e1]
  unfold base58Encode
  simp only
  rw [beNat_zeros, (bigBytes_noZero v).2]
  have ht := takeWhile_replicate 0
  have e2 : ((List.replicate k (0:UInt8) ++ bigBytes v).takeWhile (· == 0)).map (fun _ => (49:UInt8)) = List.replicate k 49 := by
    rw [List.map_const', ht k _ (bigBytes_noZero v).1]
  rw [e2]
  have hs := split_zeros 49 s
  rw [← hk] at hs
  set t := s.dropWhile (· == 49) with htt
  have hvt : value58 0 t = some v := by rw [hs, value58_ones] at h; exact h
  obtain ⟨ds, d1, d2, d3⟩ := value58_some hvt
  obtain ⟨f1, f2, f3⟩ := digits_full 58 (by norm_num) v
  have : digitsLE 58 (v.log2 + 1) v = ds := by
    apply digVal_inj 58 (by norm_num) _ _ f2 d1 f3 _ (by rw [f1, d3])
    intro d hd e
    have : t.head? = some (char58 d) := by
      rw [d2, List.map_reverse, List.head?_reverse, List.getLast?_map, hd]; rfl
    have := dropWhile_head 49 s _ (by rw [← htt]; exact this)
    rw [e] at this
    exact this (by decide)
  rw [this, ← d2]
  exact hs.symm

/-! ## set58 -/

theorem set58Inner_spec (c : Nat) (ra : Bytes) :
    (set58Inner c ra).1.length = ra.length ∧ leNat (set58Inner c ra).1 + 256 ^ ra.length * (set58Inner c ra).2 = c + 58 * leNat ra := by
  induction ra generalizing c with
  | nil => simp [set58Inner, leNat]
  | cons a ra ih =>
    obtain ⟨h1, h2⟩ := ih ((c + 58 * a.toNat) / 256)
    simp only [set58Inner, List.length_cons, leNat]
    refine ⟨by omega, ?_⟩
    rw [UInt8.toNat_ofNat', pow_succ 256]
    have hm := Nat.mod_add_div (c + 58 * a.toNat) 256
    have h3 : (c + 58 * a.toNat) % 256 % 2 ^ 8 = (c + 58 * a.toNat) % 256 := by omega
    rw [h3]
    have e : 256 ^ ra.length * 256 * (set58Inner ((c + 58 * a.toNat) / 256) ra).2 =
        256 * (256 ^ ra.length * (set58Inner ((c + 58 * a.toNat) / 256) ra).2) := by ring
    rw [e]
    omega

theorem set58Loop_ok_iff (ra : Bytes) (s : Bytes) (r : Bytes) :
    set58Loop ra s = .ok r ↔ ∃ v, value58 (leNat ra) s = some v ∧ v < 256 ^ ra.length ∧ r = leBytes ra.length v := by
  induction s generalizing ra with
  | nil =>
    simp only [set58Loop, value58, Res.ok.injEq, Option.some.injEq, exists_eq_left']
    constructor
    · rintro rfl; exact ⟨leNat_lt ra, (leBytes_leNat ra).symm⟩
    · rintro ⟨_, rfl⟩; exact (leBytes_leNat ra).symm
  | cons c s ih =>
    simp only [set58Loop, value58]
    cases hc : index58 c with
    | none => simp
    | some d =>
      simp only
      obtain ⟨h1, h2⟩ := set58Inner_spec d ra
      by_cases hz : (set58Inner d ra).2 > 0
      · rw [if_pos hz]
        simp only [reduceCtorEq, false_iff, not_exists, not_and]
        intro v hv hlt
        have := value58_mono hv
        have hp : 256 ^ ra.length ≤ 256 ^ ra.length * (set58Inner d ra).2 := Nat.le_mul_of_pos_right _ hz
        have : leNat ra * 58 + d = d + 58 * leNat ra := by ring
        omega
      · rw [if_neg hz, ih, h1]
        have hz : (set58Inner d ra).2 = 0 := by omega
        rw [hz] at h2
        have : leNat (set58Inner d ra).1 = leNat ra * 58 + d := by
          have : 256 ^ ra.length * 0 = 0 := by simp
          rw [this] at h2; omega
        rw [this]

theorem set58Loop_not_panic (ra s : Bytes) : set58Loop ra s ≠ .panic := by
  induction s generalizing ra with
  | nil => simp [set58Loop]
  | cons c s ih =>
    simp only [set58Loop]
    cases index58 c with
    | none => simp
    | some d => simp only; split; · simp
                · exact ih _

/-- `set58` computes the 25-byte big-endian form of the base58 value, and fails exactly when there is none. -/
theorem set58_ok_iff (s a : Bytes) : set58 s = .ok a ↔ a.length = 25 ∧ value58 0 s = some (beNat a) := by
  unfold set58
  rw [Res.bind_eq_ok]
  simp only [set58Loop_ok_iff, Res.pure_eq, Res.ok.injEq, List.length_replicate]
  have h0 : leNat (List.replicate 25 0) = 0 := by decide
  rw [h0]
  constructor
  · rintro ⟨r, ⟨v, h1, h2, rfl⟩, rfl⟩
    refine ⟨by simp, ?_⟩
    rw [beNat_reverse, leNat_leBytes, Nat.mod_eq_of_lt h2, h1]
  · rintro ⟨hl, h⟩
    refine ⟨a.reverse, ⟨beNat a, h, ?_, ?_⟩, List.reverse_reverse a⟩
    · have := beNat_lt a; rwa [hl] at this
    · have e := beNat_reverse a.reverse
      rw [List.reverse_reverse] at e
      rw [e]
      have := leBytes_leNat a.reverse
      rw [List.length_reverse, hl] at this
      exact this.symm

theorem set58_not_panic (s : Bytes) : set58 s ≠ .panic := by
  unfold set58
  simp only [ne_eq, Res.bind_eq_panic, not_or, not_exists, not_and]
  exact ⟨set58Loop_not_panic _ _, by simp⟩

/-- Top digit of a number between two powers of the base. -/
theorem digitsLE_last (base : Nat) (hb : 2 ≤ base) (k n : Nat) (h1 : base ^ k ≤ n) (h2 : n < base ^ (k + 1)) (fuel : Nat) (hf : k < fuel) :
    (digitsLE base fuel n).getLast? = some (n / base ^ k) := by
  induction k generalizing n fuel with
  | zero =>
    obtain ⟨f, rfl⟩ : ∃ f, fuel = f + 1 := ⟨fuel - 1, by omega⟩
    simp only [pow_zero, zero_add, pow_one] at h1 h2
    simp only [digitsLE]
    rw [if_neg (by omega), Nat.mod_eq_of_lt h2, Nat.div_eq_of_lt h2]
    cases f <;> simp [digitsLE]
  | succ k ih =>
    obtain ⟨f, rfl⟩ : ∃ f, fuel = f + 1 := ⟨fuel - 1, by omega⟩
    have hn : n ≠ 0 := by
      have := Nat.pow_pos (n := k + 1) (show 0 < base by omega); omega
    have i := ih (n / base) (by rw [Nat.le_div_iff_mul_le (by omega), ← pow_succ]; exact h1)
      (by rw [Nat.div_lt_iff_lt_mul (by omega), ← pow_succ]; exact h2) f (by omega)
    simp only [digitsLE]
    rw [if_neg hn, List.getLast?_cons, i, Nat.div_div_eq_div_mul, Option.getD_some, pow_succ, Nat.mul_comm]

/-- Number of digits of a number between two consecutive powers. -/
theorem digitsLE_length {base : Nat} (hb : 2 ≤ base) (k n : Nat) (h1 : base ^ k ≤ n) (h2 : n < base ^ (k + 1)) (fuel : Nat) (hf : k < fuel) :
    (digitsLE base fuel n).length = k + 1 := by
  induction fuel generalizing k n with
  | zero => omega
  | succ f ih =>
    have hn : n ≠ 0 := by
      rintro rfl
      have : 0 < base ^ k := Nat.pow_pos (by omega)
      omega
    simp only [digitsLE, hn, if_false, List.length_cons]
    cases k with
    | zero =>
      have : n / base = 0 := Nat.div_eq_of_lt (by simpa using h2)
      rw [this]
      cases f <;> simp [digitsLE]
    | succ k =>
      rw [ih k (n / base) ?_ ?_ (by omega)]
      · rw [Nat.le_div_iff_mul_le (by omega)]; rw [Nat.pow_succ] at h1; exact h1
      · rw [Nat.div_lt_iff_lt_mul (by omega)]; rw [Nat.pow_succ] at h2; exact h2

end Verif
