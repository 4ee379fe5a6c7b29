import Verif.Spec.Asm
import Verif.Props.SignAuto
/-!
# C95: assembly text, exactly; C96: `GetPublicKeyHash`, `IsP2PKH` and `IsP2SH`, exactly
-/
namespace Verif.Props
open Verif Verif.Spec Verif.Op

theorem wordFor_eq (p : Bytes) : wordFor p = asmPart p := by
  unfold wordFor asmPart opName
  rcases p with _ | ⟨a, _ | ⟨b, p⟩⟩
  · rfl
  · rfl
  · rw [if_neg (by simp)]

theorem unwords_cons (w : Bytes) (ws : List Bytes) : unwords (w :: ws) = w ++ ws.flatMap fun x => 32 :: x := by
  induction ws generalizing w with
  | nil => simp [unwords]
  | cons v vs ih => rw [unwords, ih]; · simp
                    · simp

/-- C95: the text of a script: its items in order, one space between them; empty items at the two ends leave no trace (the text is trimmed), an empty item between others leaves two
spaces in a row. -/
theorem C95_toASM (s : Script) (ps : List Bytes) (h : DecodeParts s = .ok ps) :
    ∃ (k m : Nat) (us : List Bytes), ps = List.replicate k [] ++ us ++ List.replicate m [] ∧ us.head? ≠ some [] ∧ us.getLast? ≠ some [] ∧
      ToASM s = .ok (unwords (us.map wordFor)) := by
  have hf : wordFor = asmPart := funext wordFor_eq
  obtain ⟨k, m, vs, h1, h2⟩ := trim_words (ps.map asmPart) (by
    intro w hw; obtain ⟨p, _, rfl⟩ := List.mem_map.mp hw; exact (asmPart_noSpace p).1)
  obtain ⟨as, bs, hps, ha, hb⟩ := List.map_eq_append_iff.mp h1
  obtain ⟨a1, a2, has, ha1, ha2⟩ := List.map_eq_append_iff.mp ha
  have rep : ∀ (l : List Bytes) (n : Nat), l.map asmPart = List.replicate n [] → l = List.replicate n [] := by
    intro l n hl
    have hlen := congrArg List.length hl
    simp at hlen
    rw [List.eq_replicate_iff]
    refine ⟨hlen, fun x hx => ?_⟩
    have : asmPart x ∈ l.map asmPart := List.mem_map.mpr ⟨x, hx, rfl⟩
    rw [hl] at this
    exact asmPart_eq_nil.mp (List.eq_of_mem_replicate this)
  refine ⟨k, m, a2, by rw [hps, has, rep _ _ ha1, rep _ _ hb], ?_, ?_, ?_⟩
  · rcases h2 with ⟨hu, _⟩ | ⟨w, us, hu, hw, _, _⟩
    · rw [hu] at ha2
      rw [List.map_eq_nil_iff.mp ha2]; simp
    · rw [hu] at ha2
      obtain ⟨x, xs, rfl, hx, _⟩ := List.map_eq_cons_iff.mp ha2
      simp only [List.head?_cons, ne_eq, Option.some.injEq]
      rintro rfl
      exact hw (hx ▸ rfl)
  · rcases h2 with ⟨hu, _⟩ | ⟨w, us, hu, _, hl, _⟩
    · rw [hu] at ha2
      rw [List.map_eq_nil_iff.mp ha2]; simp
    · rw [hu] at ha2
      intro hc
      apply hl
      rw [← ha2, List.getLast?_map, hc]; rfl
  · rw [toASM_eq s ps h, hf, ha2]
    rcases h2 with ⟨hu, h2⟩ | ⟨w, us, hu, _, _, h2⟩
    · rw [h2, hu]; rfl
    · rw [h2, hu, unwords_cons]

/-- C95: in particular, the text of a script without empty items has one word for each. -/
theorem C95_toASM_words (s : Script) (ps : List Bytes) (h : DecodeParts s = .ok ps) (hne : [] ∉ ps) : ToASM s = .ok (unwords (ps.map wordFor)) := by
  obtain ⟨k, m, us, h1, _, _, h2⟩ := C95_toASM s ps h
  have hk : k = 0 := by
    rcases k with _ | k
    · rfl
    · exact absurd (by rw [h1]; simp [List.replicate_succ]) hne
  have hm : m = 0 := by
    rcases m with _ | m
    · rfl
    · exact absurd (by rw [h1]; simp [List.replicate_succ]) hne
  subst hk hm
  simp at h1
  rw [h2, h1]

/-- C95: a script that does not decode has no text: the error of `DecodeParts` is returned, and where that panics (C10) so does `ToASM`. -/
theorem C95_toASM_fails (s : Script) :
    (∀ e, ToASM s = .err e ↔ DecodeParts s = .err e) ∧ (ToASM s = .panic ↔ DecodeParts s = .panic) := by
  unfold ToASM
  constructor
  · intro e
    rcases h : DecodeParts s <;> simp [bind, Res.bind, pure]
  · rcases h : DecodeParts s <;> simp [bind, Res.bind, pure]

example : (ToASM [0x05, 1]).isOk = false ∧ ToASM [0x4d, 0xff, 0xff] = .panic := by decide +kernel

/-- C95: every text is a list of words without spaces, with single spaces between them, in one way. -/
theorem C95_words (text : Bytes) : ∃ ws : List Bytes, ws ≠ [] ∧ (∀ w ∈ ws, (32 : UInt8) ∉ w) ∧ text = unwords ws ∧
    ∀ vs : List Bytes, vs ≠ [] → (∀ w ∈ vs, (32 : UInt8) ∉ w) → text = unwords vs → vs = ws := by
  have split : ∀ vs : List Bytes, vs ≠ [] → (∀ w ∈ vs, (32 : UInt8) ∉ w) → splitOn 32 (unwords vs) = vs := by
    intro vs hne h
    rcases vs with _ | ⟨v, vs⟩
    · exact absurd rfl hne
    · rw [unwords_cons, splitOn_words 32 v vs (h v (by simp)) (fun x hx => h x (by simp [hx]))]
  have ex : ∃ ws : List Bytes, ws ≠ [] ∧ (∀ w ∈ ws, (32 : UInt8) ∉ w) ∧ text = unwords ws := by
    induction text with
    | nil => exact ⟨[[]], by simp, by simp, rfl⟩
    | cons c cs ih =>
      obtain ⟨ws, hne, hw, rfl⟩ := ih
      rcases ws with _ | ⟨w, ws⟩
      · exact absurd rfl hne
      · by_cases hc : c = 32
        · refine ⟨[] :: w :: ws, by simp, ?_, by rw [hc]; rfl⟩
          intro x hx
          rcases List.mem_cons.mp hx with rfl | hx
          · simp
          · exact hw x hx
        · refine ⟨(c :: w) :: ws, by simp, ?_, ?_⟩
          · intro x hx
            rcases List.mem_cons.mp hx with rfl | hx
            · rw [List.mem_cons, not_or]; exact ⟨fun e => hc e.symm, hw w (by simp)⟩
            · exact hw x (by simp [hx])
          · rw [unwords_cons, unwords_cons]; rfl
  obtain ⟨ws, h1, h2, h3⟩ := ex
  refine ⟨ws, h1, h2, h3, fun vs g1 g2 g3 => ?_⟩
  rw [← split vs g1 g2, ← split ws h1 h2, ← g3, ← h3]

theorem readsAs_iff (s : Script) (w b : Bytes) : ReadsAs w b ↔
    (∃ o, opCodeStrings.lookup w = some o ∧ b = [o]) ∨ (opCodeStrings.lookup w = none ∧ AppendPushDataHexString s w = .ok (s ++ b)) := by
  unfold ReadsAs
  have key : opCodeStrings.lookup w = none → ((∃ d, hexDecodeRes w = .ok d ∧ d.length ≤ 2 ^ 32 - 1 ∧ b = push d) ↔ AppendPushDataHexString s w = .ok (s ++ b)) := by
    intro _
    unfold AppendPushDataHexString AppendPushData
    constructor
    · rintro ⟨d, h1, h2, rfl⟩
      have he : EncodeParts [d] = .ok (bytesOf [tokenFor d]) := (encodeParts_ok_iff [d] _).mpr ⟨by simpa using h2, rfl⟩
      rw [h1, Res.ok_bind, he, Res.ok_bind, push_eq]
      simp [bytesOf]
    · intro h
      rw [Res.bind_eq_ok] at h
      obtain ⟨d, h1, h2⟩ := h
      rw [Res.bind_eq_ok] at h2
      obtain ⟨p, h3, h4⟩ := h2
      obtain ⟨h5, h6⟩ := (encodeParts_ok_iff _ _).mp h3
      rw [Res.pure_eq, Res.ok.injEq] at h4
      have := List.append_cancel_left h4
      refine ⟨d, h1, by simpa using h5, ?_⟩
      rw [← this, h6, push_eq]; simp [bytesOf]
  constructor
  · rintro (h | ⟨h1, h2⟩)
    · exact Or.inl h
    · exact Or.inr ⟨h1, (key h1).mp h2⟩
  · rintro (h | ⟨h1, h2⟩)
    · exact Or.inl h
    · exact Or.inr ⟨h1, (key h1).mpr h2⟩

theorem appendHex_prefix (s : Script) (w : Bytes) (s' : Script) (h : AppendPushDataHexString s w = .ok s') : ∃ b, s' = s ++ b := by
  unfold AppendPushDataHexString AppendPushData at h
  rw [Res.bind_eq_ok] at h
  obtain ⟨d, _, h2⟩ := h
  rw [Res.bind_eq_ok] at h2
  obtain ⟨p, _, h4⟩ := h2
  exact ⟨p, by simpa using h4.symm⟩

theorem asmLoop_iff (ws : List Bytes) : ∀ s : Script,
    (∃ bs, List.Forall₂ ReadsAs ws bs ∧ asmLoop s ws = .ok (s ++ bs.flatten)) ∨ ((¬ ∃ bs, List.Forall₂ ReadsAs ws bs) ∧ asmLoop s ws = .err "invalid opcode data") := by
  induction ws with
  | nil => intro s; exact Or.inl ⟨[], List.Forall₂.nil, by simp [asmLoop]⟩
  | cons w ws ih =>
    intro s
    unfold asmLoop
    have step : ∀ b, ReadsAs w b → (∃ bs, List.Forall₂ ReadsAs (w :: ws) bs ∧ asmLoop (s ++ b) ws = .ok (s ++ bs.flatten)) ∨
        ((¬ ∃ bs, List.Forall₂ ReadsAs (w :: ws) bs) ∧ asmLoop (s ++ b) ws = .err "invalid opcode data") := by
      intro b hb
      rcases ih (s ++ b) with ⟨bs, h1, h2⟩ | ⟨h1, h2⟩
      · exact Or.inl ⟨b :: bs, List.Forall₂.cons hb h1, by rw [h2]; simp⟩
      · refine Or.inr ⟨?_, h2⟩
        rintro ⟨bs, hbs⟩
        cases hbs with
        | cons _ hr => exact h1 ⟨_, hr⟩
    rcases hl : opCodeStrings.lookup w with _ | o
    · dsimp only
      rcases ha : AppendPushDataHexString s w with s' | e | _
      · dsimp only
        obtain ⟨b, rfl⟩ := appendHex_prefix s w s' ha
        exact step b ((readsAs_iff s w b).mpr (Or.inr ⟨hl, ha⟩))
      all_goals
        right
        refine ⟨?_, rfl⟩
        rintro ⟨bs, hbs⟩
        cases hbs with
        | @cons _ b _ _ hb _ =>
          rcases (readsAs_iff s w b).mp hb with ⟨o, h1, _⟩ | ⟨_, h1⟩
          · rw [hl] at h1; cases h1
          · rw [ha] at h1; cases h1
    · dsimp only
      exact step [o] (Or.inl ⟨o, hl, rfl⟩)

theorem mem_of_forall₂ {α β : Type} {R : α → β → Prop} {l : List α} {m : List β} (h : List.Forall₂ R l m) {a : α} (ha : a ∈ l) : ∃ b ∈ m, R a b := by
  induction h with
  | nil => cases ha
  | @cons x y _ _ hxy _ ih =>
    rcases List.mem_cons.mp ha with rfl | ha
    · exact ⟨y, by simp, hxy⟩
    · obtain ⟨b, hb, hr⟩ := ih ha
      exact ⟨b, by simp [hb], hr⟩

/-- A word stands for at most one piece of script. -/
theorem readsAs_unique {w b c : Bytes} (h : ReadsAs w b) (g : ReadsAs w c) : b = c := by
  rcases h with ⟨o, h1, rfl⟩ | ⟨h1, d, h2, _, rfl⟩ <;> rcases g with ⟨o', g1, rfl⟩ | ⟨g1, d', g2, _, rfl⟩
  · rw [h1] at g1; cases g1; rfl
  · rw [h1] at g1; cases g1
  · rw [h1] at g1; cases g1
  · rw [h2] at g2; cases g2; rfl

theorem readsAs_unique_list {ws bs cs : List Bytes} (h : List.Forall₂ ReadsAs ws bs) (g : List.Forall₂ ReadsAs ws cs) : bs = cs := by
  induction h generalizing cs with
  | nil => cases g; rfl
  | cons h1 _ ih => cases g with | cons g1 g2 => rw [readsAs_unique h1 g1, ih g2]

/-- C95: reading a text, every outcome. The script is what the words stand for, one after the other; if some word stands for nothing, the error is returned. (The empty word, that is two spaces in
a row or a space at an end, stands for OP_0.) -/
theorem C95_fromASM (ws : List Bytes) (hne : ws ≠ []) (h : ∀ w ∈ ws, (32 : UInt8) ∉ w) :
    (∀ s, NewFromASM (unwords ws) = .ok s ↔ ∃ bs, List.Forall₂ ReadsAs ws bs ∧ s = bs.flatten) ∧
    ((∃ w ∈ ws, ∀ b, ¬ ReadsAs w b) → NewFromASM (unwords ws) = .err "invalid opcode data") ∧ NewFromASM (unwords ws) ≠ .panic := by
  have hs : splitOn 32 (unwords ws) = ws := by
    rcases ws with _ | ⟨v, vs⟩
    · exact absurd rfl hne
    · rw [unwords_cons, splitOn_words 32 v vs (h v (by simp)) (fun x hx => h x (by simp [hx]))]
  unfold NewFromASM
  rw [hs]
  rcases asmLoop_iff ws [] with ⟨bs, h1, h2⟩ | ⟨h1, h2⟩
  · rw [h2]
    refine ⟨fun s => ?_, ?_, by simp⟩
    · rw [Res.ok.injEq, List.nil_append]
      constructor
      · rintro rfl; exact ⟨bs, h1, rfl⟩
      · rintro ⟨cs, g1, rfl⟩; rw [readsAs_unique_list h1 g1]
    · rintro ⟨w, hw, hb⟩
      exfalso
      obtain ⟨b, _, hr⟩ := mem_of_forall₂ h1 hw
      exact hb b hr
  · rw [h2]
    refine ⟨fun s => ?_, fun _ => rfl, by simp⟩
    constructor
    · intro h; cases h
    · rintro ⟨bs, g, _⟩; exact absurd ⟨bs, g⟩ h1

/-- An item that is printed as a word which stands for that item: an opcode that is not a push opcode, or at least two bytes (of a length that can be decoded, C07). -/
def PrintsBack (p : Bytes) : Prop :=
  (∃ o : UInt8, p = [o] ∧ (o = 0 ∨ 0x4e < o)) ∨ (2 ≤ p.length ∧ p.length ≤ 2 ^ 32 - 1 ∧ ¬ overflowLength p.length)

/-- C95: a text in the form `ToASM` prints survives reading and printing. -/
theorem C95_text_roundtrip (ps : List Bytes) (hne : ps ≠ []) (h : ∀ p ∈ ps, PrintsBack p) :
    ∃ s, NewFromASM (unwords (ps.map wordFor)) = .ok s ∧ ToASM s = .ok (unwords (ps.map wordFor)) ∧ DecodeParts s = .ok ps := by
  have hlen : ∀ p ∈ ps, p.length ≤ 0xFFFFFFFF := by
    intro p hp
    rcases h p hp with ⟨o, rfl, _⟩ | ⟨_, h2, _⟩
    · simp
    · simpa using h2
  have hnil : ([] : Bytes) ∉ ps := by
    intro hc
    rcases h _ hc with ⟨o, e, _⟩ | ⟨h1, _⟩
    · cases e
    · simp at h1
  let tok : Bytes → Token := fun p => if p.length = 1 then .op (p.getD 0 0) else tokenFor p
  have htok : ∀ p ∈ ps, (tok p).Valid ∧ Decodable (tok p) ∧ (tok p).bytes = reenc p ∧ (tok p).payload = p := by
    intro p hp
    rcases h p hp with ⟨o, rfl, ho⟩ | ⟨h1, h2, h3⟩
    · exact ⟨ho, trivial, by simp [tok, reenc, Token.bytes, Token.header, Token.data], rfl⟩
    · have e : tok p = tokenFor p := if_neg (by omega)
      rw [e]
      refine ⟨tokenFor_valid p (hlen p hp), ?_, ?_, tokenFor_payload p (by rintro rfl; simp at h1)⟩
      · unfold overflowLength at h3
        unfold tokenFor
        split_ifs <;> simp only [Decodable] <;> omega
      · unfold reenc; rw [if_neg (by omega)]
  have hb : ps.flatMap reenc = bytesOf (ps.map tok) := by
    unfold bytesOf
    rw [List.flatMap_map]
    exact List.flatMap_congr (fun p hp => (htok p hp).2.2.1.symm)
  have hpl : payloads (ps.map tok) = ps := by
    unfold payloads
    rw [List.map_map]
    conv_rhs => rw [← List.map_id ps]
    exact List.map_congr_left (fun p hp => (htok p hp).2.2.2)
  have hdec : DecodeParts (ps.flatMap reenc) = .ok ps := by
    rw [hb]
    have := C09_decode_complete (ps.map tok) (by intro t ht; obtain ⟨p, hp, rfl⟩ := List.mem_map.mp ht; exact (htok p hp).1)
      (by intro t ht; obtain ⟨p, hp, rfl⟩ := List.mem_map.mp ht; exact (htok p hp).2.1)
    rw [hpl] at this; exact this
  refine ⟨ps.flatMap reenc, ?_, C95_toASM_words _ ps hdec hnil, hdec⟩
  have hf : wordFor = asmPart := funext wordFor_eq
  rw [hf]
  unfold NewFromASM
  rcases ps with _ | ⟨p, ps⟩
  · exact absurd rfl hne
  · rw [List.map_cons, unwords_cons, splitOn_words 32 _ _ (asmPart_noSpace p).2 (by intro x hx; obtain ⟨q, _, rfl⟩ := List.mem_map.mp hx; exact (asmPart_noSpace q).2)]
    have := asmLoop_parts [] (p :: ps) hlen
    simpa using this

example : unwords [b!"OP_DUP", b!"OP_HASH160", b!"0102"] = b!"OP_DUP OP_HASH160 0102" := by decide +kernel
example : ToASM [0x76, 0xa9, 0x02, 1, 2] = .ok b!"OP_DUP OP_HASH160 0102" ∧ NewFromASM b!"OP_DUP OP_HASH160 0102" = .ok [0x76, 0xa9, 0x02, 1, 2] := by decide +kernel
example : NewFromASM b!"OP_DUP  OP_DUP" = .ok [0x76, 0x00, 0x76] ∧ NewFromASM b!"OP_NONE" = .err "invalid opcode data" := by decide +kernel
example : ReadsAs b!"OP_DUP" [0x76] ∧ ReadsAs b!"" [0x00] ∧ ReadsAs b!"0102" [2, 1, 2] ∧ (∀ b, ¬ ReadsAs b!"OP_NONE" b) := by
  refine ⟨Or.inl ⟨0x76, by decide +kernel, rfl⟩, Or.inr ⟨by decide +kernel, [], by decide +kernel, by decide, by decide +kernel⟩,
    Or.inr ⟨by decide +kernel, [1, 2], by decide +kernel, by decide, by decide +kernel⟩, ?_⟩
  rintro b (⟨o, h, _⟩ | ⟨_, d, h, _⟩)
  · have : opCodeStrings.lookup b!"OP_NONE" = none := by decide +kernel
    rw [this] at h; cases h
  · have : (hexDecodeRes b!"OP_NONE").isOk = false := by decide +kernel
    rw [h] at this; cases this
example : PrintsBack [0x76] ∧ PrintsBack [1, 2] ∧ ¬ PrintsBack [0x05] := by
  refine ⟨Or.inl ⟨0x76, rfl, Or.inr (by decide)⟩, Or.inr ⟨by simp, by simp, by unfold overflowLength; simp⟩, ?_⟩
  rintro (⟨o, h, h2⟩ | ⟨h, _⟩)
  · simp only [List.cons.injEq, and_true] at h
    subst h; revert h2; decide
  · simp at h

/-! ## C96 -/

/-- C96: what `GetPublicKeyHash` returns without an error, exactly: the first item after OP_DUP OP_HASH160, of whatever length and whatever follows, as long as the whole script decodes. -/
theorem C96_getPublicKeyHash (o : Option Script) (h : Bytes) :
    GetPublicKeyHash o = .ok h ↔ ∃ s, o = some s ∧ BeginsPayTo h s := getPublicKeyHash_ok_iff o h

/-- C96 (deviation): scripts that are not pay-to-public-key-hash scripts have a `public key hash`: OP_DUP OP_HASH160 followed by the push of anything at all. -/
theorem C96_not_p2pkh (h : Bytes) (hne : h ≠ []) (hl : h.length ≤ 75) : ∃ s, IsP2PKH s = false ∧ GetPublicKeyHash (some s) = .ok h := by
  refine ⟨0x76 :: 0xa9 :: bytesOf [.direct h], ?_, (getPublicKeyHash_ok_iff _ _).mpr ⟨_, rfl, .direct h, [], rfl, ?_, rfl⟩⟩
  · rw [Bool.eq_false_iff]
    intro hc
    obtain ⟨g, hg, e⟩ := (C14_isP2PKH_iff _).mp hc
    have hlen := congrArg List.length e
    simp [bytesOf, Token.bytes, Token.header, Token.data] at hlen e
    obtain ⟨e1, e2⟩ := e
    rw [show h.length = 22 by omega] at e1
    revert e1; decide
  · intro u hu
    simp only [List.mem_singleton] at hu
    subst hu
    refine ⟨⟨?_, hl⟩, trivial⟩
    rcases h with _ | ⟨a, h⟩
    · exact absurd rfl hne
    · simp

example : GetPublicKeyHash (some [0x76, 0xa9, 0x02, 7, 8]) = .ok [7, 8] ∧ IsP2PKH [0x76, 0xa9, 0x02, 7, 8] = false := by decide +kernel

/-- script/Script.go:206-214 `IsP2PKH` with every index checked, as Go does, and `&&` evaluated from the left. -/
def IsP2PKHChecked (b : Script) : Res Bool := do
  if b.length ≠ 25 then return false
  if (← index b 0) ≠ OpDUP then return false
  if (← index b 1) ≠ OpHASH160 then return false
  if (← index b 2) ≠ 0x14 then return false
  if (← index b 23) ≠ OpEQUALVERIFY then return false
  return (← index b 24) == OpCHECKSIG

/-- script/Script.go:240-247 `IsP2SH` with every index checked. -/
def IsP2SHChecked (b : Script) : Res Bool := do
  if b.length ≠ 23 then return false
  if (← index b 0) ≠ OpHASH160 then return false
  if (← index b 1) ≠ 0x14 then return false
  return (← index b 22) == OpEQUAL

theorem index_getD (b : Bytes) (i : Nat) (h : i < b.length) : index b i = .ok (b.getD i 0) := by
  unfold index
  rw [List.getElem?_eq_getElem h, List.getD_eq_getElem?_getD, List.getElem?_eq_getElem h]; rfl

/-- C96: `IsP2PKH` and `IsP2SH` never index out of range: evaluated with checked indexing they return, and return what the total versions used elsewhere say. -/
theorem C96_templates_total (s : Script) : IsP2PKHChecked s = .ok (IsP2PKH s) ∧ IsP2SHChecked s = .ok (IsP2SH s) := by
  constructor
  · unfold IsP2PKHChecked IsP2PKH
    by_cases h : s.length = 25
    · simp only [index_getD s 0 (by omega), index_getD s 1 (by omega), index_getD s 2 (by omega), index_getD s 23 (by omega), index_getD s 24 (by omega), h]
      generalize s.getD 0 0 = a
      generalize s.getD 1 0 = b
      generalize s.getD 2 0 = c
      generalize s.getD 23 0 = d
      generalize s.getD 24 0 = e
      by_cases h0 : a = OpDUP <;> by_cases h1 : b = OpHASH160 <;> by_cases h2 : c = 0x14 <;> by_cases h3 : d = OpEQUALVERIFY <;>
        simp [h0, h1, h2, h3]
    · simp [h]
  · unfold IsP2SHChecked IsP2SH
    by_cases h : s.length = 23
    · simp only [index_getD s 0 (by omega), index_getD s 1 (by omega), index_getD s 22 (by omega), h]
      generalize s.getD 0 0 = a
      generalize s.getD 1 0 = b
      generalize s.getD 22 0 = c
      by_cases h0 : a = OpHASH160 <;> by_cases h1 : b = 0x14 <;> simp [h0, h1]
    · simp [h]

end Verif.Props
