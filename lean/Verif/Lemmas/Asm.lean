import Verif.Lemmas.PushData
import Mathlib.Data.List.Induction
import Verif.Model.Script
/-! # Lemmas on strings.Split, strings.TrimSpace and the ASM functions -/
namespace Verif
open Spec Op

/-! ## split and trim -/

theorem splitOn_word (sep : UInt8) (w : Bytes) (h : sep ∉ w) : splitOn sep w = [w] := by
  induction w with
  | nil => rfl
  | cons c cs ih =>
    have hc : c ≠ sep := fun e => h (by simp [e])
    rw [splitOn, if_neg hc, ih (fun e => h (by simp [e]))]

theorem splitOn_cons (sep : UInt8) (w rest : Bytes) (h : sep ∉ w) : splitOn sep (w ++ sep :: rest) = w :: splitOn sep rest := by
  induction w with
  | nil => rw [List.nil_append, splitOn, if_pos rfl]
  | cons c cs ih =>
    have hc : c ≠ sep := fun e => h (by simp [e])
    rw [List.cons_append, splitOn, if_neg hc, ih (fun e => h (by simp [e]))]

theorem splitOn_words (sep : UInt8) (w : Bytes) (ws : List Bytes) (hw : sep ∉ w) (h : ∀ x ∈ ws, sep ∉ x) :
    splitOn sep (w ++ ws.flatMap fun x => sep :: x) = w :: ws := by
  induction ws generalizing w with
  | nil => simpa using splitOn_word sep w hw
  | cons x xs ih =>
    rw [List.flatMap_cons, List.cons_append, splitOn_cons sep w _ hw, ih x (h x (by simp)) (fun y hy => h y (by simp [hy]))]

/-- A word without white space. -/
def NoSpace (w : Bytes) : Prop := ∀ c ∈ w, isSpace c = false

theorem dropWhile_noSpace {w : Bytes} (h : NoSpace w) (hne : w ≠ []) (rest : Bytes) : (w ++ rest).dropWhile isSpace = w ++ rest := by
  cases w with
  | nil => exact absurd rfl hne
  | cons c cs => rw [List.cons_append, List.dropWhile_cons, h c (by simp)]; simp

/-- Shape of the sections that survive trimming. -/
theorem trim_words (ws : List Bytes) (h : ∀ w ∈ ws, NoSpace w) :
    ∃ (k m : Nat) (us : List Bytes), ws = List.replicate k [] ++ us ++ List.replicate m [] ∧
      ((us = [] ∧ trimSpace (ws.flatMap fun x => 32 :: x) = []) ∨
       (∃ w vs, us = w :: vs ∧ w ≠ [] ∧ (w :: vs).getLast? ≠ some [] ∧ trimSpace (ws.flatMap fun x => 32 :: x) = w ++ vs.flatMap fun x => 32 :: x)) := by
  -- strip the leading empty words
  have hsp : isSpace 32 = true := by decide
  have lead : ∀ ws : List Bytes, (∀ w ∈ ws, NoSpace w) → ∃ (k : Nat) (us : List Bytes), ws = List.replicate k [] ++ us ∧
      ((us = [] ∧ (ws.flatMap fun x => 32 :: x).dropWhile isSpace = []) ∨
       (∃ w vs, w ≠ [] ∧ us = w :: vs ∧ (ws.flatMap fun x => 32 :: x).dropWhile isSpace = w ++ vs.flatMap fun x => 32 :: x)) := by
    intro ws
    induction ws with
    | nil => intro _; exact ⟨0, [], rfl, Or.inl ⟨rfl, rfl⟩⟩
    | cons w ws ih =>
      intro h
      by_cases hw : w = []
      · obtain ⟨k, us, h1, h2⟩ := ih (fun x hx => h x (by simp [hx]))
        refine ⟨k + 1, us, by rw [hw, h1]; rfl, ?_⟩
        have : ((w :: ws).flatMap fun x => 32 :: x).dropWhile isSpace = (ws.flatMap fun x => 32 :: x).dropWhile isSpace := by
          rw [hw, List.flatMap_cons]; simp [hsp]
        rw [this]; exact h2
      · refine ⟨0, w :: ws, rfl, Or.inr ⟨w, ws, hw, rfl, ?_⟩⟩
        rw [List.flatMap_cons, List.cons_append, List.dropWhile_cons, hsp]
        exact dropWhile_noSpace (h w (by simp)) hw _
  -- strip the trailing empty words
  have trail : ∀ (w : Bytes) (vs : List Bytes), w ≠ [] → NoSpace w → (∀ x ∈ vs, NoSpace x) → ∃ (m : Nat) (us : List Bytes),
      vs = us ++ List.replicate m [] ∧ (w :: us).getLast? ≠ some [] ∧
      ((w ++ vs.flatMap fun x => 32 :: x).reverse.dropWhile isSpace).reverse = w ++ us.flatMap fun x => 32 :: x := by
    intro w vs hw hws hvs
    induction vs using List.reverseRecOn with
    | nil =>
      refine ⟨0, [], rfl, by simpa using hw, ?_⟩
      simp only [List.flatMap_nil, List.append_nil]
      have := dropWhile_noSpace (w := w.reverse) (fun c hc => hws c (by simpa using hc)) (by simpa using hw) []
      simp only [List.append_nil] at this
      rw [this, List.reverse_reverse]
    | append_singleton vs x ih =>
      by_cases hx : x = []
      · obtain ⟨m, us, h1, hl, h2⟩ := ih (fun y hy => hvs y (by simp [hy]))
        refine ⟨m + 1, us, ?_, hl, ?_⟩
        · rw [hx, h1, List.replicate_succ', List.append_assoc]
        · rw [← h2, hx]
          simp [hsp]
      · refine ⟨0, vs ++ [x], by simp, by rw [← List.cons_append, List.getLast?_append]; simpa using hx, ?_⟩
        have hxs : NoSpace x.reverse := fun c hc => hvs x (by simp) c (by simpa using hc)
        have e : (w ++ (vs ++ [x]).flatMap fun x => 32 :: x).reverse = x.reverse ++ (w ++ (vs.flatMap fun x => 32 :: x) ++ [32]).reverse := by
          simp
        rw [e, dropWhile_noSpace hxs (by simpa using hx), ← e, List.reverse_reverse]
  obtain ⟨k, us, h1, h2⟩ := lead ws h
  rcases h2 with ⟨rfl, h2⟩ | ⟨w, vs, hw, rfl, h2⟩
  · exact ⟨k, 0, [], by simpa using h1, Or.inl ⟨rfl, by unfold trimSpace; rw [h2]; rfl⟩⟩
  · have hmem : ∀ x ∈ w :: vs, NoSpace x := fun x hx => h x (by rw [h1]; exact List.mem_append.mpr (Or.inr hx))
    obtain ⟨m, us, h3, hl, h4⟩ := trail w vs hw (hmem w (by simp)) (fun x hx => hmem x (by simp [hx]))
    refine ⟨k, m, w :: us, ?_, Or.inr ⟨w, us, rfl, hw, hl, ?_⟩⟩
    · rw [h1, h3]; simp
    · unfold trimSpace; rw [h2, h4]

/-! ## the opcode tables -/

theorem opNames_ok : ∀ b : UInt8, opCodeStrings.lookup (opName b) = some b ∧ opName b ≠ [] ∧ NoSpace (opName b) ∧ (32:UInt8) ∉ opName b := by
  apply forall_uint8
  unfold NoSpace
  decide +kernel

theorem opStrings_notHex : ∀ e ∈ opCodeStrings, ¬ IsHex e.1 := by
  decide +kernel

theorem lookup_mem {α β : Type} [BEq α] [LawfulBEq α] {l : List (α × β)} {k : α} {v : β} (h : l.lookup k = some v) : (k, v) ∈ l := by
  induction l with
  | nil => simp at h
  | cons p ps ih =>
    obtain ⟨a, b⟩ := p
    rw [List.lookup_cons] at h
    split at h
    · rename_i he
      have := eq_of_beq he
      simp only [Option.some.injEq] at h
      subst this h; simp
    · exact List.mem_cons_of_mem _ (ih h)

theorem lookup_hex (p : Bytes) : opCodeStrings.lookup (hexEncode p) = none := by
  rcases h : opCodeStrings.lookup (hexEncode p) with _ | v
  · rfl
  · exact absurd (isHex_encode p) (opStrings_notHex _ (lookup_mem h))

theorem hexChar_noSpace (b : UInt8) : isSpace (hexChar (b >>> 4)) = false ∧ isSpace (hexChar (b &&& 15)) = false ∧
    hexChar (b >>> 4) ≠ 32 ∧ hexChar (b &&& 15) ≠ 32 := by
  revert b; apply forall_uint8; decide +kernel

theorem hexEncode_noSpace (p : Bytes) : NoSpace (hexEncode p) ∧ (32:UInt8) ∉ hexEncode p := by
  induction p with
  | nil => exact ⟨by intro c hc; simp [hexEncode] at hc, by simp [hexEncode]⟩
  | cons x xs ih =>
    obtain ⟨h1, h2, h3, h4⟩ := hexChar_noSpace x
    refine ⟨?_, ?_⟩
    · intro c hc
      simp only [hexEncode, List.mem_cons] at hc
      rcases hc with rfl | rfl | hc
      · exact h1
      · exact h2
      · exact ih.1 c hc
    · simp only [hexEncode, List.mem_cons, not_or]
      exact ⟨h3.symm, h4.symm, ih.2⟩

theorem asmPart_noSpace (p : Bytes) : NoSpace (asmPart p) ∧ (32:UInt8) ∉ asmPart p := by
  unfold asmPart; split
  · exact (opNames_ok _).2.2
  · exact hexEncode_noSpace p

/-- What `NewFromASM` writes for a printed part. -/
def reenc (p : Bytes) : Bytes := if p.length = 1 then p else (tokenFor p).bytes

theorem asmLoop_parts (s : Script) (ps : List Bytes) (h : ∀ p ∈ ps, p.length ≤ 0xFFFFFFFF) :
    asmLoop s (ps.map asmPart) = .ok (s ++ ps.flatMap reenc) := by
  induction ps generalizing s with
  | nil => simp [asmLoop]
  | cons p ps ih =>
    have ih := fun s => ih s (fun q hq => h q (by simp [hq]))
    simp only [List.map_cons, asmLoop, List.flatMap_cons]
    by_cases hp : p.length = 1
    · obtain ⟨x, rfl⟩ := List.length_eq_one_iff.mp hp
      simp only [asmPart, reenc, List.length_singleton, if_true, List.getD_cons_zero]
      rw [(opNames_ok x).1]
      simp only [AppendOpCode]
      rw [ih]; simp
    · simp only [asmPart, reenc, if_neg hp]
      rw [lookup_hex]
      have he : EncodeParts [p] = .ok (bytesOf [tokenFor p]) := (encodeParts_ok_iff [p] _).mpr ⟨by simpa using h p (by simp), rfl⟩
      simp only [AppendPushDataHexString, hexDecodeRes_encode, Res.ok_bind, AppendPushData, he, Res.pure_eq]
      rw [ih]; simp [bytesOf]

theorem toASM_eq (s : Script) (ps : List Bytes) (h : DecodeParts s = .ok ps) :
    ToASM s = .ok (trimSpace ((ps.map asmPart).flatMap fun x => 32 :: x)) := by
  unfold ToASM
  rw [h]
  simp only [Res.ok_bind, Res.pure_eq]
  have : ∀ (l : List Bytes) (acc : Bytes), l.foldl (fun acc p => acc ++ [32] ++ asmPart p) acc = acc ++ (l.map asmPart).flatMap (fun x => 32 :: x) := by
    intro l; induction l with
    | nil => simp
    | cons a as ih => intro acc; rw [List.foldl_cons, ih]; simp
  rw [this]; simp

theorem asmPart_eq_nil {p : Bytes} : asmPart p = [] ↔ p = [] := by
  unfold asmPart; split
  · rename_i h
    constructor
    · intro e; exact absurd e (opNames_ok _).2.1
    · rintro rfl; simp at h
  · constructor
    · intro e; have := congrArg List.length e; rw [hexEncode_length] at this
      exact List.length_eq_zero_iff.mp (by simp at this; simpa using this)
    · rintro rfl; rfl

/-- The script rebuilt from the ASM of a script with parts `ps`: the empty parts at both ends are lost to trimming. -/
theorem newFromASM_toASM (s : Script) (ps : List Bytes) (h : DecodeParts s = .ok ps) (hl : ∀ p ∈ ps, p.length ≤ 0xFFFFFFFF) :
    ∃ (k m : Nat) (us : List Bytes) (a : Bytes), ps = List.replicate k [] ++ us ++ List.replicate m [] ∧ ToASM s = .ok a ∧
      NewFromASM a = .ok (if us = [] then [0] else us.flatMap reenc) := by
  obtain ⟨k, m, us, h1, h2⟩ := trim_words (ps.map asmPart) (by
    intro w hw; obtain ⟨p, _, rfl⟩ := List.mem_map.mp hw; exact (asmPart_noSpace p).1)
  -- pull the decomposition back through `map asmPart`
  obtain ⟨as, bs, hps, ha, hb⟩ := List.map_eq_append_iff.mp h1
  obtain ⟨a1, a2, has, ha1, ha2⟩ := List.map_eq_append_iff.mp ha
  have e1 : a1 = List.replicate k [] := by
    have hlen := congrArg List.length ha1
    simp at hlen
    rw [List.eq_replicate_iff]
    refine ⟨hlen, ?_⟩
    intro x hx
    have : asmPart x ∈ a1.map asmPart := List.mem_map.mpr ⟨x, hx, rfl⟩
    rw [ha1] at this
    exact asmPart_eq_nil.mp (List.eq_of_mem_replicate this)
  have e2 : bs = List.replicate m [] := by
    have hlen := congrArg List.length hb
    simp at hlen
    rw [List.eq_replicate_iff]
    refine ⟨hlen, ?_⟩
    intro x hx
    have : asmPart x ∈ bs.map asmPart := List.mem_map.mpr ⟨x, hx, rfl⟩
    rw [hb] at this
    exact asmPart_eq_nil.mp (List.eq_of_mem_replicate this)
  refine ⟨k, m, a2, _, by rw [hps, has, e1, e2], toASM_eq s ps h, ?_⟩
  have hl2 : ∀ p ∈ a2, p.length ≤ 0xFFFFFFFF := fun p hp => hl p (by rw [hps, has]; simp [hp])
  rcases h2 with ⟨hu, h2⟩ | ⟨w, vs, hu, _, _, h2⟩
  · rw [h2]
    have : a2 = [] := by rw [hu] at ha2; simpa using ha2
    rw [if_pos this]
    decide +kernel
  · rw [h2]
    have hne : a2 ≠ [] := by rintro rfl; rw [hu] at ha2; simp at ha2
    rw [if_neg hne]
    have hmem : ∀ x ∈ w :: vs, (32:UInt8) ∉ x := by
      intro x hx; rw [← hu, ← ha2] at hx
      obtain ⟨p, _, rfl⟩ := List.mem_map.mp hx; exact (asmPart_noSpace p).2
    unfold NewFromASM
    rw [splitOn_words 32 w vs (hmem w (by simp)) (fun x hx => hmem x (by simp [hx])), ← hu, ← ha2]
    have := asmLoop_parts [] a2 hl2
    simpa using this

end Verif
