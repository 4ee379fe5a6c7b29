import Verif.Spec.ConcDecrypt
import Verif.Props.Cipher
/-!
# C126: goroutines that decrypt one ciphertext
-/
namespace Verif.Props
open Verif Verif.Spec Verif.Dec

namespace DecL

variable {E : Bytes → Bytes}

/-- A goroutine that runs alone. -/
def solo (E : Bytes → Bytes) : Nat → Bytes × PC → Bytes × PC
  | 0, x => x
  | k + 1, x => solo E k ((pcStep E x.1 x.2).1, (pcStep E x.1 x.2).2.1)

theorem solo_add (E : Bytes → Bytes) : ∀ (j k : Nat) (x : Bytes × PC), solo E (j + k) x = solo E k (solo E j x)
  | 0, k, x => by rw [Nat.zero_add]; rfl
  | j + 1, k, x => by
    rw [Nat.add_right_comm]
    exact solo_add E j k _

/-- After enough steps of its own the goroutine is at `y`. -/
def Gets (E : Bytes → Bytes) (x y : Bytes × PC) : Prop := ∃ k, solo E k x = y

theorem Gets.trans {x y z : Bytes × PC} (h : Gets E x y) (h' : Gets E y z) : Gets E x z := by
  obtain ⟨j, hj⟩ := h
  obtain ⟨k, hk⟩ := h'
  exact ⟨j + k, by rw [solo_add, hj, hk]⟩

theorem Gets.refl (x : Bytes × PC) : Gets E x x := ⟨0, rfl⟩

theorem gets_step {c : Bytes} {pc : PC} {y : Bytes × PC} (h : Gets E ((pcStep E c pc).1, (pcStep E c pc).2.1) y) : Gets E (c, pc) y := by
  obtain ⟨k, hk⟩ := h
  exact ⟨k + 1, hk⟩

theorem run_append (s : Sys) (p q : List Nat) : run E s (p ++ q) = run E (run E s p) q := by simp [run]

theorem run_cons (s : Sys) (t : Nat) (q : List Nat) : run E s (t :: q) = run E (step E s t) q := rfl

theorem step_some {s : Sys} {t : Nat} {pc : PC} (h : s.threads[t]? = some pc) :
    step E s t = ⟨(pcStep E s.bytes pc).1, s.threads.set t (pcStep E s.bytes pc).2.1, s.log ++ (pcStep E s.bytes pc).2.2.map fun a => ⟨t, a.1, a.2⟩⟩ := by
  rw [step, h]

theorem run_solo (t : Nat) : ∀ (k : Nat) (s : Sys) (pc : PC), s.threads[t]? = some pc →
    (run E s (List.replicate k t)).bytes = (solo E k (s.bytes, pc)).1 ∧ (run E s (List.replicate k t)).threads = s.threads.set t (solo E k (s.bytes, pc)).2
  | 0, s, pc, h => by
    refine ⟨rfl, ?_⟩
    show s.threads = s.threads.set t pc
    obtain ⟨hlt, he⟩ := List.getElem?_eq_some_iff.mp h
    subst he
    exact (List.set_getElem_self hlt).symm
  | k + 1, s, pc, h => by
    rw [List.replicate_succ, run_cons, step_some h]
    obtain ⟨hlt, -⟩ := List.getElem?_eq_some_iff.mp h
    obtain ⟨h1, h2⟩ := run_solo t k ⟨(pcStep E s.bytes pc).1, s.threads.set t (pcStep E s.bytes pc).2.1, s.log ++ (pcStep E s.bytes pc).2.2.map fun a => ⟨t, a.1, a.2⟩⟩
      (pcStep E s.bytes pc).2.1 (by rw [List.getElem?_set_self hlt])
    refine ⟨h1, ?_⟩
    rw [h2, List.set_set]
    rfl

theorem solo_done (c : Bytes) (r : Res Bytes) : ∀ k, solo E k (c, .done r) = (c, .done r)
  | 0 => rfl
  | k + 1 => solo_done c r k

/-! ## One goroutine alone -/

theorem gets_save (pre src ks : Bytes) : ∀ (m : Nat) (got : Bytes), got = (src.take 16).take got.length → m + got.length = min 16 src.length →
    Gets E (pre ++ src, .save pre.length ks got) (pre ++ src, .load pre.length ks (src.take 16) 0)
  | 0, got, hg, hm => by
    apply gets_step
    have : got = src.take 16 := by
      rw [hg, List.take_of_length_le]
      rw [List.length_take]; omega
    have hn : ¬ got.length < min 16 ((pre ++ src).length - pre.length) := by rw [List.length_append]; omega
    simp only [pcStep, if_neg hn]
    rw [this]
    exact Gets.refl _
  | m + 1, got, hg, hm => by
    apply gets_step
    have hp : got.length < min 16 ((pre ++ src).length - pre.length) := by rw [List.length_append]; omega
    simp only [pcStep, if_pos hp]
    apply gets_save pre src ks m
    · have hlt : got.length < (src.take 16).length := by rw [List.length_take]; omega
      rw [List.length_append, List.length_singleton, List.take_succ_eq_append_getElem hlt, ← hg]
      congr 2
      rw [List.getD_eq_getElem?_getD, List.getElem?_append_right (by omega), Nat.add_sub_cancel_left, List.getElem_take]
      rw [List.getElem?_eq_getElem (by rw [List.length_take] at hlt; omega)]
      rfl
    · rw [List.length_append, List.length_singleton]; omega

theorem gets_xor (ks next : Bytes) : ∀ (m : Nat) (pre src rest : Bytes) (p : Nat), src.length = m → pre.length = p + (next.length - m) → m ≤ next.length → next.length ≤ ks.length →
    Gets E (pre ++ (src ++ rest), .load p ks next (next.length - m))
      (pre ++ (List.zipWith (· ^^^ ·) src (ks.drop (next.length - m)) ++ rest), .block (p + next.length) next)
  | 0, pre, src, rest, p, hs, hp, hm, hk => by
    apply gets_step
    have hn : ¬ next.length - 0 < next.length := by omega
    simp only [pcStep, if_neg hn]
    rw [List.length_eq_zero_iff.mp hs]
    exact Gets.refl _
  | m + 1, pre, src, rest, p, hs, hp, hm, hk => by
    match src, hs with
    | x :: src, hs =>
      rw [List.length_cons] at hs
      apply gets_step
      have hlt : next.length - (m + 1) < next.length := by omega
      simp only [pcStep, if_pos hlt]
      apply gets_step
      simp only [pcStep]
      have hx : (pre ++ (x :: src ++ rest)).getD (p + (next.length - (m + 1))) 0 = x := by
        rw [← hp, List.getD_eq_getElem?_getD, List.getElem?_append_right (le_refl _), Nat.sub_self]; rfl
      have hd : ks.drop (next.length - (m + 1)) = ks.getD (next.length - (m + 1)) 0 :: ks.drop (next.length - m) := by
        rw [List.drop_eq_getElem_cons (by omega), List.getD_eq_getElem?_getD, List.getElem?_eq_getElem (by omega)]
        congr 2; omega
      rw [hx, ← hp, List.set_append_right _ _ (le_refl _), Nat.sub_self, hd, List.zipWith_cons_cons]
      have e : Gets E _ _ := gets_xor ks next m (pre ++ [x ^^^ ks.getD (next.length - (m + 1)) 0]) src rest p (by omega) (by rw [List.length_append, List.length_singleton, hp]; omega) (by omega) hk
      have h1 : next.length - (m + 1) + 1 = next.length - m := by omega
      rw [h1]
      simpa using e

theorem gets_blocks (hE : ∀ b, (E b).length = 16) : ∀ (fuel : Nat) (pre src next : Bytes), src.length ≤ fuel →
    Gets E (pre ++ src, .block pre.length next) (pre ++ cfbDecrypt E fuel next src, .read [])
  | fuel, pre, [], next, _ => by
    apply gets_step
    have : cfbDecrypt E fuel next [] = [] := by cases fuel <;> rfl
    rw [this]
    have hn : ¬ pre.length < (pre ++ []).length := by simp
    simp only [pcStep, if_neg hn]
    exact Gets.refl _
  | 0, pre, x :: src, next, h => by simp at h
  | fuel + 1, pre, x :: src, next, h => by
    generalize hs : x :: src = s at h ⊢
    have hne : s ≠ [] := by rw [← hs]; simp
    have hpos : 0 < s.length := List.length_pos_iff.mpr hne
    apply gets_step
    have hp : pre.length < (pre ++ s).length := by rw [List.length_append]; omega
    simp only [pcStep, if_pos hp]
    refine Gets.trans (gets_save pre s (E next) (min 16 s.length) [] (by simp) (by simp)) ?_
    have hl : (s.take 16).length = min 16 s.length := List.length_take
    have e : Gets E _ _ := gets_xor (E next) (s.take 16) (s.take 16).length pre (s.take 16) (s.drop 16) pre.length rfl (by omega) (le_refl _) (by rw [hE, hl]; omega)
    rw [Nat.sub_self, List.drop_zero, List.take_append_drop] at e
    refine Gets.trans e ?_
    rw [cfbDecrypt, if_neg hne]
    have hz : (List.zipWith (· ^^^ ·) (s.take 16) (E next)).length = (s.take 16).length := by rw [List.length_zipWith, hE, hl]; omega
    have r := gets_blocks hE fuel (pre ++ List.zipWith (· ^^^ ·) (s.take 16) (E next)) (s.drop 16) (s.take 16) (by rw [List.length_drop]; omega)
    rw [List.length_append, hz] at r
    simpa using r

theorem gets_read (iv text : Bytes) (hiv : iv.length = 16) : ∀ (m : Nat) (got : Bytes), got = text.take got.length → m + got.length = text.length →
    Gets E (iv ++ text, .read got) (iv ++ text, .done (base64Decode text))
  | 0, got, hg, hm => by
    apply gets_step
    have : got = text := by rw [hg, List.take_of_length_le]; omega
    have hn : ¬ 16 + got.length < (iv ++ text).length := by rw [List.length_append]; omega
    simp only [pcStep, if_neg hn]
    rw [this]
    exact Gets.refl _
  | m + 1, got, hg, hm => by
    apply gets_step
    have hp : 16 + got.length < (iv ++ text).length := by rw [List.length_append]; omega
    simp only [pcStep, if_pos hp]
    apply gets_read iv text hiv m
    · have hlt : got.length < text.length := by omega
      rw [List.length_append, List.length_singleton, List.take_succ_eq_append_getElem hlt, ← hg]
      congr 2
      rw [List.getD_eq_getElem?_getD, List.getElem?_append_right (by omega), hiv, Nat.add_sub_cancel_left, List.getElem?_eq_getElem hlt]
      rfl
    · rw [List.length_append, List.length_singleton]; omega

theorem gets_decrypt (ciph : BlockCipher) (h16 : ciph.BlockSize = 16) (c : Bytes) :
    Gets ciph.Encrypt (c, .begin) ((Decrypt ciph c).2, .done (Decrypt ciph c).1) := by
  have hE : ∀ b, (ciph.Encrypt b).length = 16 := fun b => by rw [ciph.Encrypt_length, h16]
  unfold Decrypt
  by_cases h : c.length < 16
  · apply gets_step
    simp only [pcStep, if_pos h]
    exact Gets.refl _
  · rw [if_neg h]
    simp only [h16, ne_eq, not_true_eq_false, if_false]
    apply gets_step
    simp only [pcStep, if_neg h]
    have hiv : (c.take 16).length = 16 := by rw [List.length_take]; omega
    have e := gets_blocks hE (c.drop 16).length (c.take 16) (c.drop 16) (c.take 16) (le_refl _)
    rw [List.take_append_drop, hiv] at e
    exact Gets.trans e (gets_read _ _ hiv _ [] (by simp) (Nat.add_zero _))

/-! ## The invariant -/

/-- Byte `j` of the first block of the body is as it was, or decrypted. -/
def OkByte (E : Bytes → Bytes) (c0 : Bytes) (j : Nat) (x : UInt8) : Prop :=
  x = c0.getD (16 + j) 0 ∨ x = c0.getD (16 + j) 0 ^^^ (E (c0.take 16)).getD j 0

/-- The bytes of the slice. -/
structure BytesInv (E : Bytes → Bytes) (c0 c : Bytes) : Prop where
  len : c.length = c0.length
  iv : c.take 16 = c0.take 16
  ok : ∀ j, j < 16 → 16 + j < c0.length → OkByte E c0 j (c.getD (16 + j) 0)

/-- Where a goroutine can be. -/
def PcInv (E : Bytes → Bytes) (c0 : Bytes) : PC → Prop
  | .begin => True
  | .block p next => 16 ≤ p ∧ p ≤ c0.length ∧ (p = 16 → next = c0.take 16) ∧ (p < 32 → p = 16 ∨ p = c0.length)
  | .save p ks got => 16 ≤ p ∧ p < c0.length ∧ (p < 32 → p = 16) ∧ (p = 16 → ks = E (c0.take 16)) ∧ got.length ≤ min 16 (c0.length - p)
  | .load p ks next i => 16 ≤ p ∧ p < c0.length ∧ (p < 32 → p = 16) ∧ (p = 16 → ks = E (c0.take 16)) ∧ next.length = min 16 (c0.length - p) ∧ i ≤ next.length
  | .store p ks next i b => 16 ≤ p ∧ p < c0.length ∧ (p < 32 → p = 16) ∧ (p = 16 → ks = E (c0.take 16)) ∧ next.length = min 16 (c0.length - p) ∧ i < next.length ∧
      (p = 16 → OkByte E c0 i b)
  | .read got => 16 ≤ c0.length ∧ 16 + got.length ≤ c0.length ∧ ∀ j x, j < 16 → got[j]? = some x → OkByte E c0 j x
  | .done r => (c0.length < 16 ∧ r = .err "ciphertext too short") ∨
      ∃ text, 16 + text.length = c0.length ∧ r = base64Decode text ∧ ∀ j x, j < 16 → text[j]? = some x → OkByte E c0 j x

theorem step_inv (c0 c : Bytes) (hb : BytesInv E c0 c) (pc : PC) (hp : PcInv E c0 pc) :
    BytesInv E c0 (pcStep E c pc).1 ∧ PcInv E c0 (pcStep E c pc).2.1 := by
  have hl := hb.len
  match pc, hp with
  | .begin, _ =>
    simp only [pcStep]
    split
    · exact ⟨hb, .inl ⟨by omega, rfl⟩⟩
    · exact ⟨hb, by show 16 ≤ 16 ∧ _; exact ⟨le_refl _, by omega, fun _ => hb.iv, fun _ => .inl rfl⟩⟩
  | .block p next, ⟨h1, h2, h3, h4⟩ =>
    simp only [pcStep]
    split
    · refine ⟨hb, h1, by omega, fun h => ?_, fun h => by rw [h3 h], by simp⟩
      rcases h4 h with h | h
      · exact h
      · omega
    · refine ⟨hb, by omega, by simp; omega, fun j x _ h => by simp at h⟩
  | .save p ks got, ⟨h1, h2, h3, h4, h5⟩ =>
    simp only [pcStep]
    split
    · exact ⟨hb, h1, h2, h3, h4, by rw [List.length_append, List.length_singleton]; omega⟩
    · exact ⟨hb, h1, h2, h3, h4, by omega, Nat.zero_le _⟩
  | .load p ks next i, ⟨h1, h2, h3, h4, h5, h6⟩ =>
    simp only [pcStep]
    split
    · refine ⟨hb, h1, h2, h3, h4, h5, by assumption, fun h => ?_⟩
      subst h
      exact hb.ok i (by omega) (by omega)
    · refine ⟨hb, by omega, by omega, fun h => by omega, fun h => ?_⟩
      have := h3 (by omega)
      right; omega
  | .store p ks next i b, ⟨h1, h2, h3, h4, h5, h6, h7⟩ =>
    simp only [pcStep]
    refine ⟨⟨by rw [List.length_set]; exact hl, ?_, fun j hj hj' => ?_⟩, h1, h2, h3, h4, h5, h6⟩
    · rw [List.take_set_of_le (by omega)]; exact hb.iv
    · by_cases he : p + i = 16 + j
      · have hp16 : p = 16 := h3 (by omega)
        have hij : i = j := by omega
        subst hp16 hij
        rw [List.getD_eq_getElem?_getD, List.getElem?_set_self (by omega), Option.getD_some, h4 rfl]
        rcases h7 rfl with h | h
        · right; rw [h]
        · left; rw [h, UInt8.xor_assoc, UInt8.xor_self, UInt8.xor_zero]
      · rw [List.getD_eq_getElem?_getD, List.getElem?_set_ne he, ← List.getD_eq_getElem?_getD]
        exact hb.ok j hj hj'
  | .read got, ⟨h1, h2, h3⟩ =>
    simp only [pcStep]
    split
    · refine ⟨hb, h1, by rw [List.length_append, List.length_singleton]; omega, fun j x hj h => ?_⟩
      rcases Nat.lt_trichotomy j got.length with hlt | heq | hgt
      · rw [List.getElem?_append_left hlt] at h; exact h3 j x hj h
      · subst heq
        rw [List.getElem?_append_right (le_refl _), Nat.sub_self] at h
        obtain rfl : c.getD (16 + got.length) 0 = x := by simpa using h
        exact hb.ok _ hj (by omega)
      · rw [List.getElem?_eq_none (by rw [List.length_append, List.length_singleton]; omega)] at h
        exact absurd h (by simp)
    · exact ⟨hb, .inr ⟨got, by omega, rfl, h3⟩⟩
  | .done r, h => exact ⟨hb, h⟩

/-- The invariant of the program. -/
def Inv (E : Bytes → Bytes) (c0 : Bytes) (s : Sys) : Prop := BytesInv E c0 s.bytes ∧ ∀ pc ∈ s.threads, PcInv E c0 pc

theorem inv_step (c0 : Bytes) (s : Sys) (h : Inv E c0 s) (t : Nat) : Inv E c0 (step E s t) := by
  cases ht : s.threads[t]? with
  | none => rw [step, ht]; exact h
  | some pc =>
    rw [step_some ht]
    have := step_inv c0 s.bytes h.1 pc (h.2 pc (List.mem_of_getElem? ht))
    refine ⟨this.1, fun q hq => ?_⟩
    rcases List.mem_or_eq_of_mem_set hq with hq | rfl
    · exact h.2 q hq
    · exact this.2

theorem inv_start (E : Bytes → Bytes) (c0 : Bytes) (n : Nat) : Inv E c0 (start c0 n) :=
  ⟨⟨rfl, rfl, fun _ _ _ => .inl rfl⟩, fun pc h => by rw [List.eq_of_mem_replicate h]; trivial⟩

theorem inv_run (c0 : Bytes) : ∀ (sch : List Nat) (s : Sys), Inv E c0 s → Inv E c0 (run E s sch)
  | [], _, h => h
  | t :: sch, s, h => inv_run c0 sch (step E s t) (inv_step c0 s h t)

theorem threads_step (s : Sys) (t : Nat) : (step E s t).threads.length = s.threads.length := by
  unfold step; split <;> simp

theorem threads_run : ∀ (sch : List Nat) (s : Sys), (run E s sch).threads.length = s.threads.length
  | [], _ => rfl
  | t :: sch, s => by rw [run_cons, threads_run sch, threads_step]

/-! ## Steps left -/

/-- Steps a goroutine still has to make, at most. -/
def toGo (len : Nat) : PC → Nat
  | .begin => 7 * (len - 16) + 3
  | .block p _ => 6 * (len - p) + (len - 16) + 2
  | .save p _ got => 3 * min 16 (len - p) - got.length + 2 + 6 * (len - p - min 16 (len - p)) + (len - 16) + 2
  | .load p _ next i => 2 * (next.length - i) + 1 + 6 * (len - p - next.length) + (len - 16) + 2
  | .store p _ next i _ => 2 * (next.length - i) + 6 * (len - p - next.length) + (len - 16) + 2
  | .read got => len - 16 - got.length + 1
  | .done _ => 0

theorem toGo_step (c0 c : Bytes) (hb : BytesInv E c0 c) (pc : PC) (hp : PcInv E c0 pc) : toGo c0.length (pcStep E c pc).2.1 ≤ toGo c0.length pc - 1 := by
  have hl := hb.len
  match pc, hp with
  | .begin, _ =>
    simp only [pcStep]
    split
    · simp [toGo]
    · simp only [toGo]; omega
  | .block p next, ⟨h1, h2, h3, h4⟩ =>
    simp only [pcStep]
    split
    · simp only [toGo, List.length_nil]; omega
    · simp only [toGo, List.length_nil]; omega
  | .save p ks got, ⟨h1, h2, h3, h4, h5⟩ =>
    simp only [pcStep]
    split
    · simp only [toGo, List.length_append, List.length_singleton]; omega
    · simp only [toGo]
      have : got.length = min 16 (c0.length - p) := by omega
      rw [this]; omega
  | .load p ks next i, ⟨h1, h2, h3, h4, h5, h6⟩ =>
    simp only [pcStep]
    split
    · simp only [toGo]; omega
    · simp only [toGo]; omega
  | .store p ks next i b, ⟨h1, h2, h3, h4, h5, h6, h7⟩ =>
    simp only [pcStep, toGo]; omega
  | .read got, ⟨h1, h2, h3⟩ =>
    simp only [pcStep]
    split
    · simp only [toGo, List.length_append, List.length_singleton]; omega
    · simp only [toGo]; omega
  | .done r, h => simp [pcStep, toGo]

theorem toGo_zero {len : Nat} {pc : PC} (h : toGo len pc = 0) : ∃ r, pc = .done r := by
  cases pc <;> simp [toGo] at h
  exact ⟨_, rfl⟩

theorem finishes (c0 : Bytes) (t : Nat) : ∀ (sch : List Nat) (s : Sys) (pc : PC), Inv E c0 s → s.threads[t]? = some pc → toGo c0.length pc ≤ sch.count t →
    ∃ r, (run E s sch).threads[t]? = some (.done r)
  | [], s, pc, hi, ht, h => by
    obtain ⟨r, rfl⟩ := toGo_zero (len := c0.length) (pc := pc) (by simpa using h)
    exact ⟨r, ht⟩
  | u :: sch, s, pc, hi, ht, h => by
    rw [run_cons]
    have hi' := inv_step c0 s hi u
    obtain ⟨hlt, -⟩ := List.getElem?_eq_some_iff.mp ht
    by_cases hu : u = t
    · subst hu
      have hd := toGo_step c0 s.bytes hi.1 pc (hi.2 pc (List.mem_of_getElem? ht))
      refine finishes c0 u sch _ (pcStep E s.bytes pc).2.1 hi' (by rw [step_some ht, List.getElem?_set_self hlt]) ?_
      rw [List.count_cons_self] at h; omega
    · refine finishes c0 t sch _ pc hi' ?_ (by rw [List.count_cons_of_ne hu] at h; exact h)
      unfold step
      split
      · exact ht
      · simp only; rw [List.getElem?_set_ne hu]; exact ht

/-! ## The log -/

/-- The goroutine has written the first byte of the body. -/
def past (len : Nat) : PC → Prop
  | .begin => False
  | .block p _ => 16 < p
  | .save p _ _ => 16 < p
  | .load p _ _ i => 16 < p ∨ 0 < i
  | .store p _ _ i _ => 16 < p ∨ 0 < i
  | .read _ => 16 < len
  | .done _ => 16 < len

theorem past_step (c0 c : Bytes) (hb : BytesInv E c0 c) (pc : PC) (hp : PcInv E c0 pc) (h : past c0.length (pcStep E c pc).2.1) :
    past c0.length pc ∨ (true, 16) ∈ (pcStep E c pc).2.2 := by
  have hl := hb.len
  match pc, hp with
  | .begin, _ =>
    simp only [pcStep] at h
    split at h
    · simp only [past] at h; omega
    · simp only [past] at h; omega
  | .block p next, ⟨h1, h2, h3, h4⟩ =>
    simp only [pcStep] at h
    split at h <;> simp only [past] at h ⊢ <;> omega
  | .save p ks got, ⟨h1, h2, h3, h4, h5⟩ =>
    simp only [pcStep] at h
    split at h <;> simp only [past] at h ⊢ <;> omega
  | .load p ks next i, ⟨h1, h2, h3, h4, h5, h6⟩ =>
    simp only [pcStep] at h
    split at h <;> simp only [past] at h ⊢ <;> omega
  | .store p ks next i b, ⟨h1, h2, h3, h4, h5, h6, h7⟩ =>
    by_cases he : 16 < p ∨ 0 < i
    · exact .inl he
    · right
      have : p + i = 16 := by omega
      simp [pcStep, this]
  | .read got, ⟨h1, h2, h3⟩ =>
    simp only [pcStep] at h
    split at h <;> exact .inl h
  | .done r, h' => exact .inl h

theorem write_place (c0 c : Bytes) (pc : PC) (hp : PcInv E c0 pc) (k : Nat) (h : (true, k) ∈ (pcStep E c pc).2.2) : 16 ≤ k ∧ k < c0.length := by
  match pc, hp with
  | .begin, _ =>
    simp only [pcStep] at h
    split at h <;> simp at h
  | .block p next, _ =>
    simp only [pcStep] at h
    split at h <;> simp at h
  | .save p ks got, _ =>
    simp only [pcStep] at h
    split at h <;> simp at h
  | .load p ks next i, _ =>
    simp only [pcStep] at h
    split at h <;> simp at h
  | .store p ks next i b, ⟨h1, h2, h3, h4, h5, h6, h7⟩ =>
    simp only [pcStep, List.mem_singleton, Prod.mk.injEq, true_and] at h
    omega
  | .read got, _ =>
    simp only [pcStep] at h
    split at h <;> simp at h
  | .done r, _ => simp [pcStep] at h

/-- What is known of the log. -/
structure LogInv (c0 : Bytes) (s : Sys) : Prop where
  past : ∀ (t : Nat) (pc : PC), s.threads[t]? = some pc → past c0.length pc → ⟨t, true, 16⟩ ∈ s.log
  who : ∀ a ∈ s.log, a.by_ < s.threads.length
  wr : ∀ a ∈ s.log, a.write = true → 16 ≤ a.at_ ∧ a.at_ < c0.length

theorem log_step (c0 : Bytes) (s : Sys) (hi : Inv E c0 s) (h : LogInv c0 s) (t : Nat) : LogInv c0 (step E s t) := by
  cases ht : s.threads[t]? with
  | none => rw [step, ht]; exact h
  | some pc =>
    obtain ⟨hlt, -⟩ := List.getElem?_eq_some_iff.mp ht
    have hp := hi.2 pc (List.mem_of_getElem? ht)
    rw [step_some ht]
    refine ⟨fun u q hu hq => ?_, fun a ha => ?_, fun a ha hw => ?_⟩
    · rw [List.mem_append]
      by_cases hut : u = t
      · subst hut
        simp only [List.getElem?_set_self hlt, Option.some.injEq] at hu
        subst hu
        rcases past_step c0 s.bytes hi.1 pc hp hq with hq | hq
        · exact .inl (h.past u pc ht hq)
        · exact .inr (List.mem_map.mpr ⟨_, hq, rfl⟩)
      · simp only [List.getElem?_set_ne (Ne.symm hut)] at hu
        exact .inl (h.past u q hu hq)
    · simp only [List.length_set]
      rcases List.mem_append.mp ha with ha | ha
      · exact h.who a ha
      · obtain ⟨x, -, rfl⟩ := List.mem_map.mp ha; exact hlt
    · rcases List.mem_append.mp ha with ha | ha
      · exact h.wr a ha hw
      · obtain ⟨x, hx, rfl⟩ := List.mem_map.mp ha
        simp only at hw
        obtain ⟨w, k⟩ := x
        simp only at hw; subst hw
        exact write_place c0 s.bytes pc hp k hx

theorem log_run (c0 : Bytes) : ∀ (sch : List Nat) (s : Sys), Inv E c0 s → LogInv c0 s → LogInv c0 (run E s sch)
  | [], _, _, h => h
  | t :: sch, s, hi, h => log_run c0 sch (step E s t) (inv_step c0 s hi t) (log_step c0 s hi h t)

theorem log_start (c0 : Bytes) (n : Nat) : LogInv c0 (start c0 n) :=
  ⟨fun t pc h hp => by
    have := List.mem_of_getElem? h
    rw [List.eq_of_mem_replicate this] at hp
    exact hp.elim, fun a ha => by simp [start] at ha, fun a ha => by simp [start] at ha⟩

/-- In terms of the plaintext. -/
theorem okByte_blend (c0 p m : Bytes) (h16 : 16 ≤ c0.length) (hp : IsCFB E (c0.take 16) p (c0.drop 16)) (hm : 16 + m.length = c0.length)
    (h : ∀ j x, j < 16 → m[j]? = some x → OkByte E c0 j x) : Blend ((c0.drop 16).take 16) (p.take 16) (m.take 16) := by
  have hdl : (c0.drop 16).length = c0.length - 16 := List.length_drop
  have hpl : p.length = c0.length - 16 := by rw [← hp.1, hdl]
  refine ⟨by rw [List.length_take, List.length_take, hdl]; omega, fun i x hx => ?_⟩
  have hi : i < 16 := by
    have := (List.getElem?_eq_some_iff.mp hx).1
    rw [List.length_take] at this; omega
  rw [List.getElem?_take_of_lt hi] at hx
  have him : i < m.length := (List.getElem?_eq_some_iff.mp hx).1
  rw [List.getElem?_take_of_lt hi, List.getElem?_take_of_lt hi, List.getElem?_drop]
  rcases h i x hi hx with h | h
  · left
    rw [h, List.getD_eq_getElem?_getD, List.getElem?_eq_getElem (by omega)]; rfl
  · right
    have hc := hp.2 i (by omega)
    have e0 : i / 16 = 0 := by omega
    have e1 : i % 16 = i := by omega
    rw [e0, e1, Nat.mul_zero, List.drop_zero, List.take_append_of_le_length (by rw [List.length_take]; omega), List.take_of_length_le (by rw [List.length_take]; omega)] at hc
    have hg : (c0.drop 16).getD i 0 = c0.getD (16 + i) 0 := by
      rw [List.getD_eq_getElem?_getD, List.getD_eq_getElem?_getD, List.getElem?_drop]
    rw [h, ← hg, hc, UInt8.xor_assoc, UInt8.xor_self, UInt8.xor_zero, List.getD_eq_getElem?_getD, List.getElem?_eq_getElem (by omega)]; rfl

end DecL

open DecL

/-! ## At every moment -/

/-- C126, at any moment of any schedule: the slice has its length and its initialisation vector, and each of the first 16 bytes behind it is the ciphertext's or the plaintext's. -/
theorem C126_always (ciph : BlockCipher) (c p : Bytes) (h16 : 16 ≤ c.length) (hp : IsCFB ciph.Encrypt (c.take 16) p (c.drop 16)) (n : Nat) (sch : List Nat) :
    let b := (run ciph.Encrypt (start c n) sch).bytes
    b.length = c.length ∧ b.take 16 = c.take 16 ∧ Blend ((c.drop 16).take 16) (p.take 16) ((b.drop 16).take 16) := by
  intro b
  obtain ⟨hb, -⟩ := inv_run c sch _ (inv_start ciph.Encrypt c n)
  refine ⟨hb.len, hb.iv, okByte_blend c p (b.drop 16) h16 hp (by rw [List.length_drop, hb.len]; omega) fun j x hj hx => ?_⟩
  rw [List.getElem?_drop] at hx
  have := hb.ok j hj (by have := (List.getElem?_eq_some_iff.mp hx).1; rw [← hb.len]; exact this)
  rw [List.getD_eq_getElem?_getD, hx] at this
  exact this

/-- C126: a call that has returned decoded a text as long as the body, of whose first 16 bytes each is the ciphertext's or the plaintext's; it has not panicked. -/
theorem C126_returned (ciph : BlockCipher) (c p : Bytes) (h16 : 16 ≤ c.length) (hp : IsCFB ciph.Encrypt (c.take 16) p (c.drop 16)) (n : Nat) (sch : List Nat) (t : Nat) (r : Res Bytes)
    (h : Gave (run ciph.Encrypt (start c n) sch) t r) :
    ∃ text, r = base64Decode text ∧ text.length = p.length ∧ Blend ((c.drop 16).take 16) (p.take 16) (text.take 16) := by
  obtain ⟨-, hi⟩ := inv_run c sch _ (inv_start ciph.Encrypt c n)
  rcases hi _ (List.mem_of_getElem? h) with ⟨h, -⟩ | ⟨text, hl, hr, ht⟩
  · omega
  · have := hp.1
    rw [List.length_drop] at this
    exact ⟨text, hr, by omega, okByte_blend c p text h16 hp hl ht⟩

/-- C126: a ciphertext that is too short is refused by every call, and not touched. -/
theorem C126_short (ciph : BlockCipher) (c : Bytes) (h16 : c.length < 16) (n : Nat) (sch : List Nat) (t : Nat) (r : Res Bytes) (h : Gave (run ciph.Encrypt (start c n) sch) t r) :
    r = .err "ciphertext too short" ∧ (run ciph.Encrypt (start c n) sch).bytes = c := by
  obtain ⟨hb, hi⟩ := inv_run c sch _ (inv_start ciph.Encrypt c n)
  refine ⟨?_, ?_⟩
  · rcases hi _ (List.mem_of_getElem? h) with ⟨-, h⟩ | ⟨text, hl, -⟩
    · exact h
    · omega
  · have := hb.iv
    have hl : (run ciph.Encrypt (start c n) sch).bytes.length ≤ 16 := by rw [hb.len]; omega
    have hc : c.length ≤ 16 := by omega
    rwa [List.take_of_length_le hl, List.take_of_length_le hc] at this

/-- C126: no call waits for another: a goroutine that makes seven steps per byte of the body and three more has returned. -/
theorem C126_finishes (ciph : BlockCipher) (c : Bytes) (n t : Nat) (ht : t < n) (sch : List Nat) (h : 7 * (c.length - 16) + 3 ≤ sch.count t) :
    ∃ r, Gave (run ciph.Encrypt (start c n) sch) t r :=
  finishes c t sch _ .begin (inv_start ciph.Encrypt c n) (by simp [start, ht]) h

/-! ## Calls that nobody disturbs -/

theorem begins {E : Bytes → Bytes} (t : Nat) : ∀ (sch : List Nat) (s : Sys), t ∉ sch → (run E s sch).threads[t]? = s.threads[t]?
  | [], _, _ => rfl
  | u :: sch, s, h => by
    rw [run_cons, begins t sch _ (fun h' => h (List.mem_cons_of_mem _ h'))]
    have hu : u ≠ t := fun e => h (by rw [e]; exact List.mem_cons_self)
    unfold step
    split
    · rfl
    · simp only; rw [List.getElem?_set_ne hu]

/-- C126: a call that no other goroutine interrupts, whatever the others have done before and wherever they are, does to the bytes that it finds what `Decrypt` does in a program with one goroutine. -/
theorem C126_undisturbed (ciph : BlockCipher) (h16 : ciph.BlockSize = 16) (c : Bytes) (n t : Nat) (ht : t < n) (sch : List Nat) (hn : t ∉ sch) (N : Nat) (hN : 7 * (c.length - 16) + 3 ≤ N) :
    let s := run ciph.Encrypt (start c n) sch
    let s' := run ciph.Encrypt (start c n) (sch ++ List.replicate N t)
    s'.bytes = (Decrypt ciph s.bytes).2 ∧ Gave s' t (Decrypt ciph s.bytes).1 ∧ ∀ u, u ≠ t → s'.threads[u]? = s.threads[u]? := by
  intro s s'
  have hb : s.threads[t]? = some .begin := by rw [begins t sch _ hn]; simp [start, ht]
  have hlt : t < s.threads.length := (List.getElem?_eq_some_iff.mp hb).1
  have e : s' = run ciph.Encrypt s (List.replicate N t) := run_append _ _ _
  obtain ⟨h1, h2⟩ := run_solo (E := ciph.Encrypt) t N s .begin hb
  obtain ⟨k, hk⟩ := gets_decrypt ciph h16 s.bytes
  obtain ⟨r, hr⟩ := finishes c t (List.replicate N t) s .begin (inv_run c sch _ (inv_start ciph.Encrypt c n)) hb (by rw [List.count_replicate_self]; exact hN)
  rw [h2, List.getElem?_set_self hlt, Option.some.injEq] at hr
  have hs : solo ciph.Encrypt N (s.bytes, .begin) = ((solo ciph.Encrypt N (s.bytes, .begin)).1, .done r) := by rw [← hr]
  have a1 : solo ciph.Encrypt (N + k) (s.bytes, .begin) = solo ciph.Encrypt N (s.bytes, .begin) := by rw [solo_add, hs, solo_done]
  have a2 : solo ciph.Encrypt (N + k) (s.bytes, .begin) = ((Decrypt ciph s.bytes).2, .done (Decrypt ciph s.bytes).1) := by
    rw [Nat.add_comm, solo_add, hk, solo_done]
  rw [a2] at a1
  rw [e]
  refine ⟨by rw [h1, ← a1], ?_, fun u hu => ?_⟩
  · show (run ciph.Encrypt s (List.replicate N t)).threads[t]? = _
    rw [h2, List.getElem?_set_self hlt, ← a1]
  · rw [h2, List.getElem?_set_ne (Ne.symm hu)]

theorem decrypt_length (ciph : BlockCipher) (c : Bytes) : (Decrypt ciph c).2.length = c.length := by
  unfold Decrypt
  split
  · rfl
  · rename_i h
    split
    · rfl
    · rename_i h16
      rw [not_not] at h16
      simp only
      rw [List.length_append, cfbDecrypt_length _ (fun b => by rw [ciph.Encrypt_length, h16]) _ _ _ (le_refl _), List.length_take, List.length_drop]; omega

/-- C126: goroutines that make their calls one after the other, in any order `us`: call number `j` decrypts what the `j` calls before it have left in the slice. (So the first gives the text.) -/
theorem C126_in_turn (ciph : BlockCipher) (h16 : ciph.BlockSize = 16) (c : Bytes) (n : Nat) (us : List Nat) (nd : us.Nodup) (hu : ∀ u ∈ us, u < n) (N : Nat) (hN : 7 * (c.length - 16) + 3 ≤ N) :
    let s := run ciph.Encrypt (start c n) (us.flatMap fun u => List.replicate N u)
    s.bytes = afterCalls ciph c us.length ∧ ∀ (j u : Nat), us[j]? = some u → Gave s u (Decrypt ciph (afterCalls ciph c j)).1 := by
  induction us using List.reverseRecOn with
  | nil => exact ⟨rfl, fun j u h => by simp at h⟩
  | append_singleton us t ih =>
    intro s
    rw [List.nodup_append] at nd
    have htu : t ∉ us := fun h => nd.2.2 t h t (by simp) rfl
    obtain ⟨i1, i2⟩ := ih nd.1 (fun u h => hu u (by simp [h]))
    have ht : t ∉ us.flatMap fun u => List.replicate N u := by
      intro h
      obtain ⟨u, hu1, hu2⟩ := List.mem_flatMap.mp h
      rw [List.eq_of_mem_replicate hu2] at htu
      exact htu hu1
    obtain ⟨u1, u2, u3⟩ := C126_undisturbed ciph h16 c n t (hu t (by simp)) _ ht N hN
    have e : s = run ciph.Encrypt (start c n) ((us.flatMap fun u => List.replicate N u) ++ List.replicate N t) := by
      show run _ _ _ = _; rw [List.flatMap_append]; simp
    rw [e]
    refine ⟨?_, fun j u h => ?_⟩
    · rw [u1, i1, List.length_append, List.length_singleton, afterCalls, afterCalls, Function.iterate_succ_apply']
    · rcases Nat.lt_trichotomy j us.length with hlt | heq | hgt
      · rw [List.getElem?_append_left hlt] at h
        show _ = _
        rw [u3 u (fun e => htu (e ▸ List.mem_of_getElem? h))]
        exact i2 j u h
      · subst heq
        rw [List.getElem?_append_right (le_refl _), Nat.sub_self] at h
        obtain rfl : t = u := by simpa using h
        rw [i1] at u2
        exact u2
      · rw [List.getElem?_eq_none (by rw [List.length_append, List.length_singleton]; omega)] at h
        exact absurd h (by simp)

theorem zipWith_xor_twice : ∀ (a k : Bytes), a.length ≤ k.length → List.zipWith (· ^^^ ·) (List.zipWith (· ^^^ ·) a k) k = a
  | [], _, _ => by simp
  | x :: a, [], h => by simp at h
  | x :: a, y :: k, h => by
    rw [List.zipWith_cons_cons, List.zipWith_cons_cons, zipWith_xor_twice a k (by simpa using h), UInt8.xor_assoc, UInt8.xor_self, UInt8.xor_zero]

/-- C126: for texts of at most 12 bytes (bodies of at most 16) a second call puts the ciphertext back. So of goroutines that decrypt the slice one after the other every other one gets the text. -/
theorem C126_restored (ciph : BlockCipher) (c : Bytes) (h : c.length ≤ 32) : (Decrypt ciph (Decrypt ciph c).2).2 = c := by
  by_cases hs : c.length < 16
  · have : Decrypt ciph c = (.err "ciphertext too short", c) := by rw [Decrypt, if_pos hs]
    rw [this]; simp only; rw [this]
  · by_cases h16 : ciph.BlockSize = 16
    · have hE : ∀ b, (ciph.Encrypt b).length = 16 := fun b => by rw [ciph.Encrypt_length, h16]
      have one : ∀ (next src : Bytes), src.length ≤ 16 → cfbDecrypt ciph.Encrypt src.length next src = List.zipWith (· ^^^ ·) src (ciph.Encrypt next) := by
        intro next src hl
        cases src with
        | nil => rfl
        | cons x src =>
          rw [List.length_cons, cfbDecrypt, if_neg (by simp), List.take_of_length_le hl, List.drop_eq_nil_of_le hl]
          have : cfbDecrypt ciph.Encrypt src.length (x :: src) [] = [] := by cases src.length <;> rfl
          rw [this, List.append_nil]
      have hiv : (c.take 16).length = 16 := by rw [List.length_take]; omega
      have hbody : (c.drop 16).length ≤ 16 := by rw [List.length_drop]; omega
      have hz : (List.zipWith (· ^^^ ·) (c.drop 16) (ciph.Encrypt (c.take 16))).length = (c.drop 16).length := by rw [List.length_zipWith, hE]; omega
      have d : ∀ body : Bytes, body.length ≤ 16 → (Decrypt ciph (c.take 16 ++ body)).2 = c.take 16 ++ List.zipWith (· ^^^ ·) body (ciph.Encrypt (c.take 16)) := by
        intro body hb
        rw [Decrypt, if_neg (by rw [List.length_append]; omega)]
        simp only [h16, ne_eq, not_true_eq_false, if_false]
        rw [List.take_left' hiv, List.drop_left' hiv, one _ _ hb]
      have e := d (c.drop 16) hbody
      rw [List.take_append_drop] at e
      rw [e, d _ (by omega), zipWith_xor_twice _ _ (by rw [hE]; omega), List.take_append_drop]
    · have : Decrypt ciph c = (.panic, c) := by rw [Decrypt, if_neg hs]; simp only; rw [if_pos h16]
      rw [this]; simp only; rw [this]

/-! ## All that two calls can do to a short text -/

/-- Two goroutines, the bytes and where they are. -/
def At2 (s : Sys) (b : Bytes) (x y : PC) : Prop := s.bytes = b ∧ s.threads = [x, y]

theorem move0 {E : Bytes → Bytes} {s : Sys} {b b' : Bytes} {x x' y : PC} (h : At2 s b x y) (g : Gets E (b, x) (b', x')) : ∃ sch, At2 (run E s sch) b' x' y := by
  obtain ⟨k, hk⟩ := g
  obtain ⟨h1, h2⟩ := run_solo (E := E) 0 k s x (by rw [h.2]; rfl)
  rw [h.1, hk] at h1 h2
  exact ⟨_, h1, by rw [h2, h.2]; rfl⟩

theorem move1 {E : Bytes → Bytes} {s : Sys} {b b' : Bytes} {x y y' : PC} (h : At2 s b x y) (g : Gets E (b, y) (b', y')) : ∃ sch, At2 (run E s sch) b' x y' := by
  obtain ⟨k, hk⟩ := g
  obtain ⟨h1, h2⟩ := run_solo (E := E) 1 k s y (by rw [h.2]; rfl)
  rw [h.1, hk] at h1 h2
  exact ⟨_, h1, by rw [h2, h.2]; rfl⟩

theorem gets_load {E : Bytes → Bytes} {c ks next : Bytes} {p i : Nat} (h : i < next.length) : Gets E (c, .load p ks next i) (c, .store p ks next i (c.getD (p + i) 0)) := by
  apply gets_step
  simp only [pcStep, if_pos h]
  exact Gets.refl _

theorem gets_store {E : Bytes → Bytes} {c ks next : Bytes} {p i : Nat} {x : UInt8} : Gets E (c, .store p ks next i x) (c.set (p + i) (x ^^^ ks.getD i 0), .load p ks next (i + 1)) :=
  gets_step (Gets.refl _)

/-- The two calls can leave byte `i` decrypted or as it was. -/
theorem blend_byte {E : Bytes → Bytes} {s : Sys} {c ks next : Bytes} {p i : Nat} (hi : i < next.length) (hc : p + i < c.length) (h : At2 s c (.load p ks next i) (.load p ks next i)) (x : UInt8)
    (hx : x = c.getD (p + i) 0 ∨ x = c.getD (p + i) 0 ^^^ ks.getD i 0) :
    ∃ sch, At2 (run E s sch) (c.set (p + i) x) (.load p ks next (i + 1)) (.load p ks next (i + 1)) := by
  have hg : ∀ v, (c.set (p + i) v).getD (p + i) 0 = v := fun v => by rw [List.getD_eq_getElem?_getD, List.getElem?_set_self hc]; rfl
  rcases hx with rfl | rfl
  · obtain ⟨s1, h1⟩ := move0 h (gets_load (E := E) hi)
    obtain ⟨s2, h2⟩ := move0 h1 (gets_store (E := E))
    obtain ⟨s3, h3⟩ := move1 h2 (gets_load (E := E) hi)
    rw [hg] at h3
    obtain ⟨s4, h4⟩ := move1 h3 (gets_store (E := E))
    rw [List.set_set, UInt8.xor_assoc, UInt8.xor_self, UInt8.xor_zero] at h4
    exact ⟨s1 ++ (s2 ++ (s3 ++ s4)), by rw [run_append, run_append, run_append]; exact h4⟩
  · obtain ⟨s1, h1⟩ := move0 h (gets_load (E := E) hi)
    obtain ⟨s2, h2⟩ := move1 h1 (gets_load (E := E) hi)
    obtain ⟨s3, h3⟩ := move0 h2 (gets_store (E := E))
    obtain ⟨s4, h4⟩ := move1 h3 (gets_store (E := E))
    rw [List.set_set] at h4
    exact ⟨s1 ++ (s2 ++ (s3 ++ s4)), by rw [run_append, run_append, run_append]; exact h4⟩

theorem blend_bytes {E : Bytes → Bytes} (ks next : Bytes) (p : Nat) : ∀ (rest m pre : Bytes) (s : Sys) (i : Nat), i + rest.length = next.length → pre.length = p + i → m.length = rest.length →
    At2 s (pre ++ rest) (.load p ks next i) (.load p ks next i) → (∀ (j : Nat) (x : UInt8), m[j]? = some x → x = rest.getD j 0 ∨ x = rest.getD j 0 ^^^ ks.getD (i + j) 0) →
    ∃ sch, At2 (run E s sch) (pre ++ m) (.load p ks next next.length) (.load p ks next next.length)
  | [], m, pre, s, i, hi, hp, hm, h, _ => by
    have : m = [] := List.length_eq_zero_iff.mp hm
    subst this
    rw [List.length_nil, Nat.add_zero] at hi
    subst hi
    exact ⟨[], h⟩
  | y :: rest, [], pre, s, i, hi, hp, hm, h, _ => by simp at hm
  | y :: rest, x :: m, pre, s, i, hi, hp, hm, h, hx => by
    rw [List.length_cons] at hi
    have hget : (pre ++ y :: rest).getD (p + i) 0 = y := by
      rw [← hp, List.getD_eq_getElem?_getD, List.getElem?_append_right (le_refl _), Nat.sub_self]; rfl
    have hx0 := hx 0 x rfl
    rw [Nat.add_zero] at hx0
    obtain ⟨s1, h1⟩ := blend_byte (E := E) (by omega) (by rw [List.length_append, List.length_cons]; omega) h x (by rw [hget]; exact hx0)
    have e : (pre ++ y :: rest).set (p + i) x = (pre ++ [x]) ++ rest := by
      rw [← hp, List.set_append_right _ _ (le_refl _), Nat.sub_self]; simp
    rw [e] at h1
    obtain ⟨s2, h2⟩ := blend_bytes ks next p rest m (pre ++ [x]) _ (i + 1) (by omega) (by rw [List.length_append, List.length_singleton]; omega) (by simpa using hm) h1 (fun j z hz => by
      have := hx (j + 1) z hz
      rwa [List.getD_cons_succ, show i + (j + 1) = i + 1 + j by omega] at this)
    exact ⟨s1 ++ s2, by rw [run_append]; simpa using h2⟩

/-- C126, exactly, for texts of at most 12 bytes (bodies of 1 to 16 bytes): what two calls on one ciphertext leave in the slice and return. Every blend of ciphertext and plaintext, byte by byte, is possible, and
nothing else: both calls can find and decode the same blend. -/
theorem C126_blends (ciph : BlockCipher) (c p m : Bytes) (hl : 16 < c.length ∧ c.length ≤ 32) (hp : IsCFB ciph.Encrypt (c.take 16) p (c.drop 16)) :
    (∃ sch, let s := run ciph.Encrypt (start c 2) sch; Gave s 0 (base64Decode m) ∧ Gave s 1 (base64Decode m) ∧ s.bytes = c.take 16 ++ m) ↔ Blend (c.drop 16) p m := by
  have hiv : (c.take 16).length = 16 := by rw [List.length_take]; omega
  have hdl : (c.drop 16).length = c.length - 16 := List.length_drop
  have hpl := hp.1
  constructor
  · rintro ⟨sch, -, -, hb⟩
    obtain ⟨h1, h2, h3⟩ := C126_always ciph c p (by omega) hp 2 sch
    rw [hb, List.drop_left' hiv] at h3
    rw [hb, List.length_append, hiv] at h1
    rwa [List.take_of_length_le (by omega), List.take_of_length_le (l := p) (by omega), List.take_of_length_le (by omega)] at h3
  · rintro ⟨hml, hm⟩
    have g1 : Gets ciph.Encrypt (c, .begin) (c, .load 16 (ciph.Encrypt (c.take 16)) (c.drop 16) 0) := by
      apply gets_step
      simp only [pcStep, if_neg (show ¬ c.length < 16 by omega)]
      apply gets_step
      simp only [pcStep, if_pos hl.1]
      have := gets_save (E := ciph.Encrypt) (c.take 16) (c.drop 16) (ciph.Encrypt (c.take 16)) (min 16 (c.drop 16).length) [] (by simp) (by simp)
      rwa [List.take_append_drop, hiv, List.take_of_length_le (l := c.drop 16) (by omega)] at this
    have h0 : At2 (start c 2) c .begin .begin := ⟨rfl, rfl⟩
    obtain ⟨s1, a1⟩ := move0 h0 g1
    obtain ⟨s2, a2⟩ := move1 a1 g1
    obtain ⟨s3, a3⟩ := blend_bytes (E := ciph.Encrypt) (ciph.Encrypt (c.take 16)) (c.drop 16) 16 (c.drop 16) m (c.take 16) _ 0 (by omega) (by omega) hml (by rw [List.take_append_drop]; exact a2) (by
      intro j x hx
      have hj : j < m.length := (List.getElem?_eq_some_iff.mp hx).1
      rcases hm j x hx with h | h
      · left; rw [List.getD_eq_getElem?_getD, h]; rfl
      · right
        have hc := hp.2 j (by omega)
        have e0 : j / 16 = 0 := by omega
        have e1 : j % 16 = j := by omega
        rw [e0, e1, Nat.mul_zero, List.drop_zero, List.take_append_of_le_length (by omega), List.take_of_length_le (by omega)] at hc
        rw [Nat.zero_add, hc, UInt8.xor_assoc, UInt8.xor_self, UInt8.xor_zero, List.getD_eq_getElem?_getD, h]; rfl)
    have g2 : Gets ciph.Encrypt (c.take 16 ++ m, .load 16 (ciph.Encrypt (c.take 16)) (c.drop 16) (c.drop 16).length) (c.take 16 ++ m, .done (base64Decode m)) := by
      apply gets_step
      simp only [pcStep, if_neg (lt_irrefl (c.drop 16).length)]
      apply gets_step
      have hn : ¬ 16 + (c.drop 16).length < (c.take 16 ++ m).length := by rw [List.length_append]; omega
      simp only [pcStep, if_neg hn]
      exact gets_read _ _ hiv _ [] (by simp) (Nat.add_zero _)
    obtain ⟨s4, a4⟩ := move0 a3 g2
    obtain ⟨s5, a5⟩ := move1 a4 g2
    refine ⟨s1 ++ (s2 ++ (s3 ++ (s4 ++ s5))), ?_⟩
    rw [run_append, run_append, run_append, run_append]
    exact ⟨by show _ = _; rw [a5.2]; rfl, by show _ = _; rw [a5.2]; rfl, a5.1⟩

/-! ## Data races -/

/-- C126: when all calls have returned, there has been a data race when and only when there were two calls and the ciphertext has a body. -/
theorem C126_races (ciph : BlockCipher) (c : Bytes) (n : Nat) (sch : List Nat) (hf : AllGave (run ciph.Encrypt (start c n) sch)) :
    ByteRace (run ciph.Encrypt (start c n) sch).log ↔ 2 ≤ n ∧ 16 < c.length := by
  have hlog := log_run c sch _ (inv_start ciph.Encrypt c n) (log_start c n)
  have hlen : (run ciph.Encrypt (start c n) sch).threads.length = n := by rw [threads_run]; simp [start]
  constructor
  · rintro ⟨a, ha, b, hb, hne, hat, hw⟩
    have h1 := hlog.who a ha
    have h2 := hlog.who b hb
    have h3 := hlog.wr a ha hw
    omega
  · rintro ⟨hn, hc⟩
    have wrote : ∀ t, t < n → (⟨t, true, 16⟩ : Access) ∈ (run ciph.Encrypt (start c n) sch).log := by
      intro t ht
      have hlt : t < (run ciph.Encrypt (start c n) sch).threads.length := by omega
      obtain ⟨r, hr⟩ := hf _ (List.getElem_mem hlt)
      exact hlog.past t _ (List.getElem?_eq_getElem hlt) (by rw [hr]; exact hc)
    exact ⟨⟨0, true, 16⟩, wrote 0 (by omega), ⟨1, true, 16⟩, wrote 1 (by omega), by simp, rfl, rfl⟩

/-- C126: a single call, and calls on a ciphertext without a body, never race, at no moment. -/
theorem C126_race_free (ciph : BlockCipher) (c : Bytes) (n : Nat) (h : n ≤ 1 ∨ c.length ≤ 16) (sch : List Nat) : ¬ ByteRace (run ciph.Encrypt (start c n) sch).log := by
  have hlog := log_run c sch _ (inv_start ciph.Encrypt c n) (log_start c n)
  have hlen : (run ciph.Encrypt (start c n) sch).threads.length = n := by rw [threads_run]; simp [start]
  rintro ⟨a, ha, b, hb, hne, hat, hw⟩
  have h1 := hlog.who a ha
  have h2 := hlog.who b hb
  have h3 := hlog.wr a ha hw
  omega

/-! ## The violation -/

/-- A cipher that maps every block to the same one (for the examples). -/
def flatCipher : BlockCipher where
  BlockSize := 16
  Encrypt _ := List.replicate 16 38
  Encrypt_length _ := by simp

/-- The ciphertext of `pay 300` in the examples. -/
def exCipher : Bytes := List.replicate 16 9 ++ [69, 97, 96, 19, 111, 98, 107, 81, 107, 103, 27, 27]

theorem exCipher_eq : Encrypt flatCipher (some (List.replicate 16 9)) b!"pay 300" = .ok exCipher := by decide +kernel

theorem exCipher_cfb : IsCFB flatCipher.Encrypt (exCipher.take 16) b!"cGF5IDMwMA==" (exCipher.drop 16) := by
  have h : ∀ j < 12, (exCipher.drop 16).getD j 0 = List.getD b!"cGF5IDMwMA==" j 0 ^^^
      (flatCipher.Encrypt (((exCipher.take 16 ++ exCipher.drop 16).drop (16 * (j / 16))).take 16)).getD (j % 16) 0 := by decide +kernel
  exact ⟨by decide +kernel, fun j hj => h j hj⟩

/-- C126 is violated (decrypting does not spoil the argument for others): two goroutines decrypt the ciphertext of `pay 300` at the same time, and both get `pay 900`, without an error. -/
theorem C126_violated : ∃ (ciph : BlockCipher) (iv c : Bytes) (sch : List Nat), ciph.BlockSize = 16 ∧ Encrypt ciph (some iv) b!"pay 300" = .ok c ∧
    Gave (run ciph.Encrypt (start c 2) sch) 0 (.ok b!"pay 900") ∧ Gave (run ciph.Encrypt (start c 2) sch) 1 (.ok b!"pay 900") := by
  have hd : base64Decode b!"cGF5IDkwMA==" = .ok b!"pay 900" := by decide +kernel
  obtain ⟨sch, h0, h1, -⟩ := (C126_blends flatCipher exCipher b!"cGF5IDMwMA==" b!"cGF5IDkwMA==" (by decide +kernel) exCipher_cfb).mpr (by
    refine ⟨by decide +kernel, fun i x hx => ?_⟩
    have hi : i < 12 := (List.getElem?_eq_some_iff.mp hx).1
    have h : ∀ i < 12, (exCipher.drop 16)[i]? = (b!"cGF5IDkwMA==" : Bytes)[i]? ∨ (b!"cGF5IDMwMA==" : Bytes)[i]? = (b!"cGF5IDkwMA==" : Bytes)[i]? := by decide +kernel
    have := h i hi
    rwa [hx] at this)
  rw [hd] at h0 h1
  exact ⟨flatCipher, _, _, sch, rfl, exCipher_eq, h0, h1⟩

/-! ## Non-vacuity -/

/-- One call alone gives the text; the next, on the bytes it left, another result; the third the text again. -/
example : (Decrypt flatCipher exCipher).1 = .ok b!"pay 300" ∧ (Decrypt flatCipher (Decrypt flatCipher exCipher).2).1 ≠ .ok b!"pay 300" ∧
    (Decrypt flatCipher (Decrypt flatCipher (Decrypt flatCipher exCipher).2).2).1 = .ok b!"pay 300" := by decide +kernel

/-- Two calls in turn, step by step: the model runs, the first gives the text, the second refuses what is left, and the slice is as it was. -/
example : ∃ s, s = run flatCipher.Encrypt (start exCipher 2) (List.replicate 87 0 ++ List.replicate 87 1) ∧ Gave s 0 (.ok b!"pay 300") ∧ (∃ e, Gave s 1 (.err e)) ∧ s.bytes = exCipher ∧ AllGave s := by
  obtain ⟨hb, hg⟩ := C126_in_turn flatCipher rfl exCipher 2 [0, 1] (by simp) (by simp) 87 (by decide +kernel)
  refine ⟨_, rfl, ?_, ?_, ?_, ?_⟩
  · have := hg 0 0 rfl
    have e : (Decrypt flatCipher (afterCalls flatCipher exCipher 0)).1 = .ok b!"pay 300" := by decide +kernel
    rw [e] at this
    simpa using this
  · have := hg 1 1 rfl
    have e : (Decrypt flatCipher (afterCalls flatCipher exCipher 1)).1 = .err "illegal base64 data" := by decide +kernel
    rw [e] at this
    exact ⟨_, by simpa using this⟩
  · have e : afterCalls flatCipher exCipher 2 = exCipher := C126_restored flatCipher exCipher (by decide +kernel)
    simpa [e] using hb
  · intro pc hpc
    obtain ⟨t, ht⟩ := List.mem_iff_getElem?.mp hpc
    have hlt : t < 2 := by
      have := (List.getElem?_eq_some_iff.mp ht).1
      rwa [threads_run] at this
    have h : ∀ t < 2, 7 * (exCipher.length - 16) + 3 ≤ (List.replicate 87 0 ++ List.replicate 87 1).count t := by decide +kernel
    obtain ⟨r, hr⟩ := C126_finishes flatCipher exCipher 2 t hlt _ (h t hlt)
    exact ⟨r, by rw [Gave, ht] at hr; simpa using hr⟩

/-- Texts of several blocks are covered too: a ciphertext of 56 bytes, read by three goroutines in turn. -/
example : ∃ c, Encrypt toyCipher (some (List.replicate 16 9)) b!"hello, this is a longer secret" = .ok c ∧
    Gave (run toyCipher.Encrypt (start c 3) ([2, 0, 1].flatMap fun u => List.replicate 283 u)) 2 (.ok b!"hello, this is a longer secret") := by
  obtain ⟨c, hc, hl, hd⟩ : ∃ c, Encrypt toyCipher (some (List.replicate 16 9)) b!"hello, this is a longer secret" = .ok c ∧ c.length = 56 ∧
      (Decrypt toyCipher c).1 = .ok b!"hello, this is a longer secret" := by
    refine ⟨_, rfl, ?_⟩
    decide +kernel
  refine ⟨c, hc, ?_⟩
  obtain ⟨-, hg⟩ := C126_in_turn toyCipher rfl c 3 [2, 0, 1] (by simp) (by simp) 283 (by omega)
  have := hg 0 2 rfl
  rw [afterCalls, Function.iterate_zero_apply, hd] at this
  exact this

end Verif.Props
