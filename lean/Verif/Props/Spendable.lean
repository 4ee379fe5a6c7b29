import Verif.Props.Spend
import Verif.Props.Redeem
import Verif.Props.Output
import Verif.Lemmas.DecodeHeap
/-!
# C83-C86: who can spend the outputs the library makes
-/
namespace Verif.Props
open Verif Spec Transaction

theorem evalToken_pushOnly (H : HashFns) (c : Bytes → Bytes → Bool) (t : Token) (hv : t.Valid) (hp : PushOnly t) (st : List Bytes) :
    (t = .op 0x50 ∧ evalToken H c t st = none) ∨ (t ≠ .op 0x50 ∧ evalToken H c t st = some (pushValue t :: st)) := by
  cases t with
  | direct d | pd1 d | pd2 d | pd4 d => right; exact ⟨by simp, rfl⟩
  | op o =>
    have hall : ∀ o : UInt8, (o = 0 ∨ 0x4e < o) → o ≤ 0x60 → o ≠ 0x76 ∧ o ≠ 0xa9 ∧ o ≠ 0x88 ∧ o ≠ 0xac ∧ o ≠ 0x87 ∧ o ≠ 0xae ∧
        (o = 0x50 ∨ o = 0 ∨ o = 0x4f ∨ (0x51 ≤ o ∧ o ≤ 0x60)) ∧ (o = 0x50 → ¬ (0x51 ≤ o ∧ o ≤ 0x60)) := by
      apply forall_uint8; decide +kernel
    obtain ⟨h1, h2, h3, h4, h5, h6, h7, h8⟩ := hall o hv hp
    simp only [evalToken, pushValue, h1, h2, h3, h4, h5, h6, if_false, Token.op.injEq]
    by_cases e : o = 0x50
    · left
      refine ⟨e, ?_⟩
      subst e
      rfl
    · right
      refine ⟨by simpa using e, ?_⟩
      by_cases e0 : o = 0
      · simp [e0]
      · by_cases e1 : o = 0x4f
        · simp [e1]
        · have : 0x51 ≤ o ∧ o ≤ 0x60 := by
            rcases h7 with h | h | h | h
            · exact absurd h e
            · exact absurd h e0
            · exact absurd h e1
            · exact h
          simp [e0, e1, this]

theorem pushOnly_ne_return {t : Token} (h : PushOnly t) : t ≠ .op 0x6a := by
  rintro rfl
  revert h
  show ¬ ((0x6a : UInt8) ≤ 0x60)
  decide

theorem eval_pushes (H : HashFns) (c : Bytes → Bytes → Bool) : ∀ (us : List Token) (st st' : List Bytes), (∀ u ∈ us, u.Valid ∧ PushOnly u) →
    (evalTokens H c us st = some st' ↔ (∀ u ∈ us, u ≠ .op 0x50) ∧ st' = (us.map pushValue).reverse ++ st) := by
  intro us
  induction us with
  | nil => intro st st' _; simp [evalTokens, eq_comm]
  | cons u us ih =>
    intro st st' h
    obtain ⟨hv, hp⟩ := h u (by simp)
    rw [evalTokens, if_neg (pushOnly_ne_return hp)]
    rcases evalToken_pushOnly H c u hv hp st with ⟨e, h1⟩ | ⟨e, h1⟩
    · rw [h1]; simp [e]
    · rw [h1, Option.bind_some, ih _ _ (fun x hx => h x (by simp [hx]))]
      simp [e]

/-- Acceptance, with the stack made by the unlocking script. -/
theorem accepted_iff (H : HashFns) (verify : Bytes → Bytes → Bytes → Bool) (tx : Transaction) (k : Nat) (lock : Bytes) (sats : UInt64) (ts : List Token)
    (hl : lock = bytesOf ts) (hv : ∀ t ∈ ts, t.Valid) :
    Accepted H verify tx k lock sats ↔ ∃ (inp : Input) (unl : Bytes) (items : List Bytes) (fin : List Bytes), tx.Inputs[k]? = some inp ∧
      inp.UnlockingScript = some unl ∧ Pushes unl items ∧ evalTokens H (checkSigOf H verify tx k inp lock sats) ts items.reverse = some fin ∧ Truthy fin := by
  constructor
  · rintro ⟨inp, unl, us, ts', st, fin, h1, h2, h3, h4, h5, h6, h7, h8, h9⟩
    have : ts' = ts := C09_tokens_unique ts' ts h6 hv (by rw [← h5, hl])
    subst this
    obtain ⟨g1, g2⟩ := (eval_pushes H _ us [] st h4).mp h7
    refine ⟨inp, unl, us.map pushValue, fin, h1, h2, ⟨us, h3, fun u hu => ⟨(h4 u hu).1, (h4 u hu).2, g1 u hu⟩, rfl⟩, ?_, h9⟩
    rw [g2, List.append_nil] at h8
    exact h8
  · rintro ⟨inp, unl, items, fin, h1, h2, ⟨us, h3, h4, h5⟩, h6, h7⟩
    refine ⟨inp, unl, us, ts, items.reverse, fin, h1, h2, h3, fun u hu => ⟨(h4 u hu).1, (h4 u hu).2.1⟩, hl, hv, ?_, h6, h7⟩
    rw [eval_pushes H _ us [] _ (fun u hu => ⟨(h4 u hu).1, (h4 u hu).2.1⟩)]
    exact ⟨fun u hu => (h4 u hu).2.2, by rw [h5, List.append_nil]⟩

theorem checkSigOf_iff (H : HashFns) (verify : Bytes → Bytes → Bytes → Bool) (tx : Transaction) (k : Nat) (inp : Input) (code : Bytes) (sats : UInt64) (pub item : Bytes) :
    checkSigOf H verify tx k inp code sats pub item = true ↔ SignedBy H verify tx k inp code sats pub item := by
  unfold checkSigOf SignedBy
  constructor
  · intro h
    cases e : item.getLast? with
    | none => rw [e] at h; cases h
    | some f =>
      rw [e] at h
      simp only [Bool.and_eq_true] at h
      have hne : item ≠ [] := by rintro rfl; simp at e
      refine ⟨item.dropLast, f, ?_, h.1, h.2⟩
      rw [List.getLast?_eq_some_getLast hne, Option.some.injEq] at e
      rw [← e, List.dropLast_append_getLast]
  · rintro ⟨sig, flag, rfl, h1, h2⟩
    simp only [List.getLast?_append, List.getLast?_singleton, Option.some_or, List.dropLast_concat, h1, Bool.true_and]
    exact h2

theorem truthy_one (st : List Bytes) : Truthy ([1] :: st) := ⟨0, 1, rfl, by decide, by decide⟩
theorem not_truthy_nil (st : List Bytes) : ¬ Truthy ([] :: st) := by rintro ⟨k, b, h, -⟩; simp at h

theorem truthy_bool (c : Bool) (st : List Bytes) : Truthy ((if c then [1] else []) :: st) ↔ c = true := by
  cases c
  · simp only [Bool.false_eq_true, if_false, iff_false]; exact not_truthy_nil st
  · simp only [if_true, iff_true]; exact truthy_one st

/-! ## C83: pay to public key hash -/

/-- The tokens of a P2PKH script. -/
def p2pkhTokens (h : Bytes) : List Token := [.op 0x76, .op 0xa9, .direct h, .op 0x88, .op 0xac]

theorem p2pkhTokens_bytes (h : Bytes) (hl : h.length = 20) : p2pkh h = bytesOf (p2pkhTokens h) := by
  simp [p2pkh, p2pkhTokens, bytesOf, Token.bytes, Token.header, Token.data, hl]

theorem p2pkhTokens_valid (h : Bytes) (hl : h.length = 20) : ∀ t ∈ p2pkhTokens h, t.Valid := by
  intro t ht
  simp only [p2pkhTokens, List.mem_cons, List.not_mem_nil, or_false] at ht
  rcases ht with rfl | rfl | rfl | rfl | rfl
  · exact Or.inr (by decide)
  · exact Or.inr (by decide)
  · exact ⟨by omega, by omega⟩
  · exact Or.inr (by decide)
  · exact Or.inr (by decide)

theorem eval_p2pkh (H : HashFns) (c : Bytes → Bytes → Bool) (h : Bytes) (st : List Bytes) :
    (∃ fin, evalTokens H c (p2pkhTokens h) st = some fin ∧ Truthy fin) ↔
      ∃ pub item rest, st = pub :: item :: rest ∧ H.ripemd160 (H.sha256 pub) = h ∧ c pub item = true := by
  rcases st with _ | ⟨pub, st⟩
  · simp [p2pkhTokens, evalTokens, evalToken]
  rcases st with _ | ⟨item, rest⟩
  · by_cases e : H.ripemd160 (H.sha256 pub) = h
    · simp [p2pkhTokens, evalTokens, evalToken, e]
    · have e' : ¬ h = H.ripemd160 (H.sha256 pub) := fun x => e x.symm
      simp [p2pkhTokens, evalTokens, evalToken, e']
  · by_cases e : H.ripemd160 (H.sha256 pub) = h
    · have : evalTokens H c (p2pkhTokens h) (pub :: item :: rest) = some ((if c pub item then [1] else []) :: rest) := by
        simp [p2pkhTokens, evalTokens, evalToken, e]
      rw [this]
      simp only [Option.some.injEq, exists_eq_left', truthy_bool]
      constructor
      · intro hc; exact ⟨pub, item, rest, rfl, e, hc⟩
      · rintro ⟨p', i', r', h1, -, h3⟩; simp only [List.cons.injEq] at h1; obtain ⟨rfl, rfl, rfl⟩ := h1; exact h3
    · have e' : ¬ h = H.ripemd160 (H.sha256 pub) := fun x => e x.symm
      have : evalTokens H c (p2pkhTokens h) (pub :: item :: rest) = none := by
        simp [p2pkhTokens, evalTokens, evalToken, e']
      rw [this]
      constructor
      · rintro ⟨_, h, -⟩; cases h
      · rintro ⟨p', i', r', h1, h2, -⟩; simp only [List.cons.injEq] at h1; obtain ⟨rfl, rfl, rfl⟩ := h1; exact absurd h2 e

/-- C83: a P2PKH output can be spent by exactly those inputs whose unlocking script pushes (possibly after other items) a signature with a defined flag and a
public key, such that the key has the hash named in the script and the signature verifies for that key and the digest of this input. -/
theorem C83_p2pkh_iff (H : HashFns) (verify : Bytes → Bytes → Bytes → Bool) (tx : Transaction) (k : Nat) (h : Bytes) (hl : h.length = 20) (sats : UInt64) :
    Accepted H verify tx k (p2pkh h) sats ↔ ∃ (inp : Input) (unl : Bytes) (before : List Bytes) (item pub : Bytes), tx.Inputs[k]? = some inp ∧
      inp.UnlockingScript = some unl ∧ Pushes unl (before ++ [item, pub]) ∧ H.ripemd160 (H.sha256 pub) = h ∧
      SignedBy H verify tx k inp (p2pkh h) sats pub item := by
  rw [accepted_iff H verify tx k _ sats _ (p2pkhTokens_bytes h hl) (p2pkhTokens_valid h hl)]
  constructor
  · rintro ⟨inp, unl, items, fin, h1, h2, h3, h4, h5⟩
    obtain ⟨pub, item, rest, e1, e2, e3⟩ := (eval_p2pkh H _ h _).mp ⟨fin, h4, h5⟩
    refine ⟨inp, unl, rest.reverse, item, pub, h1, h2, ?_, e2, (checkSigOf_iff ..).mp e3⟩
    have := congrArg List.reverse e1
    simp only [List.reverse_reverse, List.reverse_cons, List.append_assoc, List.singleton_append] at this
    rw [← this]; exact h3
  · rintro ⟨inp, unl, before, item, pub, h1, h2, h3, h4, h5⟩
    obtain ⟨fin, g1, g2⟩ := (eval_p2pkh H (checkSigOf H verify tx k inp (p2pkh h) sats) h (pub :: item :: before.reverse)).mpr
      ⟨pub, item, _, rfl, h4, (checkSigOf_iff ..).mpr h5⟩
    refine ⟨inp, unl, _, fin, h1, h2, h3, ?_, g2⟩
    simpa using g1

theorem pushValue_tokenFor (d : Bytes) : pushValue (tokenFor d) = d := by
  unfold tokenFor
  split_ifs with h
  · rw [List.length_eq_zero_iff.mp h]; rfl
  all_goals rfl

theorem tokenFor_pushOnly (d : Bytes) : PushOnly (tokenFor d) ∧ tokenFor d ≠ .op 0x50 := by
  unfold tokenFor
  split_ifs with h
  · exact ⟨by show (0 : UInt8) ≤ 0x60; decide, by decide⟩
  all_goals exact ⟨trivial, by simp⟩

/-- What the library's pushes push. -/
theorem pushes_iff (ds items : List Bytes) (h : ∀ d ∈ ds, d.length < 2 ^ 32) : Pushes (ds.flatMap push) items ↔ items = ds := by
  have hb : ds.flatMap push = bytesOf (ds.map tokenFor) := by
    unfold bytesOf
    rw [List.flatMap_map]
    congr 1
    funext d
    exact push_eq d
  have hv : ∀ u ∈ ds.map tokenFor, u.Valid := by
    intro u hu
    obtain ⟨d, hd, rfl⟩ := List.mem_map.mp hu
    exact tokenFor_valid d (by have := h d hd; omega)
  have hm : (ds.map tokenFor).map pushValue = ds := by
    rw [List.map_map]
    conv_rhs => rw [← List.map_id ds]
    congr 1
    funext d
    exact pushValue_tokenFor d
  constructor
  · rintro ⟨us, h1, h2, h3⟩
    have : ds.map tokenFor = us := C09_tokens_unique _ _ hv (fun u hu => (h2 u hu).1) (by rw [← hb, h1])
    rw [h3, ← this, hm]
  · rintro rfl
    refine ⟨_, hb, ?_, hm.symm⟩
    intro u hu
    refine ⟨hv u hu, ?_⟩
    obtain ⟨d, hd, rfl⟩ := List.mem_map.mp hu
    exact tokenFor_pushOnly d

/-- C83, the flag: if the signer's flag is not one that nodes accept (for example ALL without FORKID, 0x01), `Sign` succeeds all the same, and the input it
signed cannot spend any P2PKH output, whatever its hash and amount. -/
theorem C83_undefined_flag (H : HashFns) (verify : Bytes → Bytes → Bytes → Bool) (is : InternalSigner) (hz : SignerSized is)
    (hf : DefinedFlag (flagOrDefault is.SigHashFlag) = false) (tx : Transaction) (hs : Sized tx) (idx : UInt32) (tx' : Transaction)
    (h : is.Sign H idx tx = .ok tx') (hash : Bytes) (hl : hash.length = 20) (sats : UInt64) :
    ¬ Accepted H verify tx' idx.toNat (p2pkh hash) sats := by
  obtain ⟨inp, code, sig, h1, h2, h3, h4, h5⟩ := C47_sign_ok H is hz tx hs idx tx' h
  rw [C83_p2pkh_iff H verify tx' _ hash hl sats]
  rintro ⟨inp', unl, before, item, pub, g1, g2, g3, -, s, f, g4, g5, -⟩
  rw [h5] at g1
  simp only [withUnlocking, List.getElem?_mapIdx, h1, Option.map_some, if_true, Option.some.injEq] at g1
  rw [← g1] at g2
  injection g2 with g2
  have hu : push (sig ++ [flagOrDefault is.SigHashFlag]) ++ push is.pubKey = [sig ++ [flagOrDefault is.SigHashFlag], is.pubKey].flatMap push := by simp
  rw [← g2, hu, pushes_iff _ _ (by
    intro d hd
    simp only [List.mem_cons, List.not_mem_nil, or_false] at hd
    rcases hd with rfl | rfl
    · have := hz.2 _ _ h4; simp; omega
    · exact hz.1)] at g3
  have hlen := congrArg List.length g3
  simp only [List.length_append, List.length_cons, List.length_nil] at hlen
  have hb : before = [] := List.length_eq_zero_iff.mp (by omega)
  rw [hb, List.nil_append, List.cons.injEq] at g3
  rw [g4] at g3
  have := List.append_inj_right' g3.1 rfl
  rw [List.cons.injEq] at this
  rw [this.1, hf] at g5
  cases g5

/-! ## C84: hash puzzles -/

theorem eval_append (H : HashFns) (c : Bytes → Bytes → Bool) : ∀ (ts us : List Token) (st : List Bytes), (∀ t ∈ ts, t ≠ .op 0x6a) →
    evalTokens H c (ts ++ us) st = (evalTokens H c ts st).bind (evalTokens H c us) := by
  intro ts
  induction ts with
  | nil => intro us st _; rfl
  | cons t ts ih =>
    intro us st h
    have ht : t ≠ .op 0x6a := h t (by simp)
    rw [List.cons_append, evalTokens, evalTokens, if_neg ht, if_neg ht]
    cases evalToken H c t st with
    | none => rfl
    | some st' => rw [Option.bind_some, Option.bind_some, ih us st' (fun x hx => h x (by simp [hx]))]

/-- C84: an output made by `NewHashPuzzle` can be spent by exactly those inputs whose unlocking script pushes (possibly after other items) a signature, a public
key and a string such that the string has the same HASH160 as the secret, the key has the hash given to `NewHashPuzzle`, and the signature, with a defined flag,
verifies for the key and the digest of this input. -/
theorem C84_hashPuzzle_iff (H : HashFns) (verify : Bytes → Bytes → Bytes → Bool) (secret h : Bytes) (hl : h.length = 20) (sats : UInt64) (o : Output)
    (ho : Output.NewHashPuzzle H secret (hexEncode h) sats = .ok o) (tx : Transaction) (k : Nat) :
    Accepted H verify tx k o.LockingScript o.Satoshis ↔ ∃ (inp : Input) (unl : Bytes) (before : List Bytes) (item pub x : Bytes), tx.Inputs[k]? = some inp ∧
      inp.UnlockingScript = some unl ∧ Pushes unl (before ++ [item, pub, x]) ∧ H.ripemd160 (H.sha256 x) = H.ripemd160 (H.sha256 secret) ∧
      H.ripemd160 (H.sha256 pub) = h ∧ SignedBy H verify tx k inp o.LockingScript o.Satoshis pub item := by
  obtain ⟨p, hp, -, h2, -⟩ := C21_hashPuzzle H secret h sats hl
  have hp' : p = p2pkh h := by
    have e := (C21_p2pkh_outputs h [] sats).1
    unfold Output.NewP2PkhFromPubKeyHash at e
    rw [hp] at e
    simp only [Res.ok_bind, Res.pure_eq, Res.ok.injEq, Output.mk.injEq] at e
    exact e.2
  rw [h2] at ho
  injection ho with ho
  subst ho
  dsimp only
  rw [hp']
  have h20 := H.ripemd160_length (H.sha256 secret)
  generalize hS : H.ripemd160 (H.sha256 secret) = S at h20
  have hb : [0xa9, 0x14] ++ S ++ [0x88] ++ p2pkh h = bytesOf ([.op 0xa9, .direct S, .op 0x88] ++ p2pkhTokens h) := by
    rw [bytesOf_append, ← p2pkhTokens_bytes h hl]
    simp [bytesOf, Token.bytes, Token.header, Token.data, h20]
  have hv : ∀ t ∈ [.op 0xa9, .direct S, .op 0x88] ++ p2pkhTokens h, t.Valid := by
    intro t ht
    rcases List.mem_append.mp ht with ht | ht
    · simp only [List.mem_cons, List.not_mem_nil, or_false] at ht
      rcases ht with rfl | rfl | rfl
      · exact Or.inr (by decide)
      · exact ⟨by omega, by omega⟩
      · exact Or.inr (by decide)
    · exact p2pkhTokens_valid h hl t ht
  have hev : ∀ c st, (∃ fin, evalTokens H c ([.op 0xa9, .direct S, .op 0x88] ++ p2pkhTokens h) st = some fin ∧ Truthy fin) ↔
      ∃ x st', st = x :: st' ∧ H.ripemd160 (H.sha256 x) = S ∧ ∃ fin, evalTokens H c (p2pkhTokens h) st' = some fin ∧ Truthy fin := by
    intro c st
    rw [eval_append _ _ _ _ _ (by simp)]
    rcases st with _ | ⟨x, st⟩
    · simp [evalTokens, evalToken]
    · by_cases e : H.ripemd160 (H.sha256 x) = S
      · simp [evalTokens, evalToken, e]
      · have e' : ¬ S = H.ripemd160 (H.sha256 x) := fun y => e y.symm
        simp [evalTokens, evalToken, e, e']
  rw [accepted_iff H verify tx k _ sats _ hb hv]
  constructor
  · rintro ⟨inp, unl, items, fin, h1, h2, h3, h4, h5⟩
    obtain ⟨x, st', e0, ex, hfin⟩ := (hev _ _).mp ⟨fin, h4, h5⟩
    obtain ⟨pub, item, rest, e1, e2, e3⟩ := (eval_p2pkh H _ h _).mp hfin
    refine ⟨inp, unl, rest.reverse, item, pub, x, h1, h2, ?_, ex, e2, (checkSigOf_iff ..).mp e3⟩
    rw [e1] at e0
    have := congrArg List.reverse e0
    simp only [List.reverse_reverse, List.reverse_cons, List.append_assoc, List.singleton_append] at this
    rw [this] at h3; exact h3
  · rintro ⟨inp, unl, before, item, pub, x, h1, h2, h3, hx, h4, h5⟩
    obtain ⟨fin, g1, g2⟩ := (hev (checkSigOf H verify tx k inp ([0xa9, 0x14] ++ S ++ [0x88] ++ p2pkh h) sats) (x :: pub :: item :: before.reverse)).mpr
      ⟨x, _, rfl, hx, (eval_p2pkh H _ h _).mpr ⟨pub, item, _, rfl, h4, (checkSigOf_iff ..).mpr h5⟩⟩
    refine ⟨inp, unl, _, fin, h1, h2, h3, ?_, g2⟩
    simpa using g1

/-! ## C85: data outputs -/

/-- A script that begins OP_FALSE OP_RETURN cannot be spent. -/
theorem data_unspendable (H : HashFns) (verify : Bytes → Bytes → Bytes → Bool) (rest : Bytes) (tx : Transaction) (k : Nat) (sats : UInt64) :
    ¬ Accepted H verify tx k ([0x00, 0x6a] ++ rest) sats := by
  rintro ⟨inp, unl, us, ts, st, fin, h1, h2, h3, h4, h5, h6, h7, h8, h9⟩
  have first : ∀ (b : UInt8) (r : Bytes) (ts : List Token), (b = 0 ∨ 0x4e < b) → (∀ t ∈ ts, t.Valid) → b :: r = bytesOf ts →
      ∃ ts', ts = .op b :: ts' ∧ r = bytesOf ts' := by
    intro b r ts hb hv he
    cases ts with
    | nil => simp [bytesOf] at he
    | cons t ts =>
      have ht := hv t (by simp)
      have e : b :: r = t.bytes ++ bytesOf ts := by rw [he]; simp [bytesOf]
      rcases token_first_op (rest := bytesOf ts) ht with ⟨o, rfl, -⟩ | ⟨-, g⟩
      · simp only [Token.bytes, Token.header, Token.data, List.append_nil, List.singleton_append, List.cons.injEq] at e
        exact ⟨ts, by rw [e.1], e.2⟩
      · exfalso
        rw [← e] at g
        simp only [List.getD_cons_zero] at g
        rcases hb with hb | hb
        · rw [hb] at g; simp at g
        · have := UInt8.lt_iff_toNat_lt.mp hb
          have h4e : (0x4e : UInt8).toNat = 78 := rfl
          omega
  obtain ⟨ts1, rfl, e1⟩ := first _ _ _ (Or.inl rfl) h6 h5
  obtain ⟨ts2, rfl, e2⟩ := first _ _ _ (Or.inr (by decide)) (fun t ht => h6 t (by simp [ht])) e1
  have : evalTokens H (checkSigOf H verify tx k inp ([0x00, 0x6a] ++ rest) sats) (.op 0 :: .op 0x6a :: ts2) st = some ([] :: st) := by
    simp [evalTokens, evalToken]
  rw [this] at h8
  injection h8 with h8
  rw [← h8] at h9
  exact not_truthy_nil _ h9

/-- C85: no input of any transaction, with any unlocking script and any signatures, can spend an output made by `NewOpReturn` or `NewOpReturnParts`. -/
theorem C85_data_unspendable (H : HashFns) (verify : Bytes → Bytes → Bytes → Bool) (data : List Bytes) (o : Output) (ho : Output.NewOpReturnParts data = .ok o)
    (tx : Transaction) (k : Nat) : ¬ Accepted H verify tx k o.LockingScript o.Satoshis := by
  obtain ⟨h1, h2, -⟩ := C21_opReturn data
  by_cases hd : ∀ p ∈ data, p.length ≤ 2 ^ 32 - 1
  · obtain ⟨o', pres, e1, -, -, -, -, e2⟩ := h1 hd
    rw [ho] at e1
    injection e1 with e1
    subst e1
    rw [e2]
    exact data_unspendable H verify _ tx k _
  · push Not at hd
    have := h2 hd
    rw [ho] at this
    cases this

/-- C85, with what `IsData` calls data: scripts that begin with a bare OP_RETURN are recognised too, but are spendable by anyone (the unlocking script's own
top item decides). -/
theorem C85_bare_return_spendable (H : HashFns) (verify : Bytes → Bytes → Bytes → Bool) (tx : Transaction) (k : Nat) (inp : Input) (sats : UInt64)
    (hi : tx.Inputs[k]? = some inp) (hu : inp.UnlockingScript = some [0x51]) (ts : List Token) (hv : ∀ t ∈ ts, t.Valid) :
    IsData (0x6a :: bytesOf ts) = .ok true ∧ Accepted H verify tx k (0x6a :: bytesOf ts) sats := by
  refine ⟨by simp [IsData, index], inp, [0x51], [.op 0x51], .op 0x6a :: ts, [[1]], [[1]], hi, hu, rfl, ?_, ?_, ?_, ?_, ?_, truthy_one []⟩
  · intro u h
    rw [List.mem_singleton.mp h]
    exact ⟨Or.inr (by decide), by show (0x51 : UInt8) ≤ 0x60; decide⟩
  · simp [bytesOf, Token.bytes, Token.header, Token.data]
  · intro t ht
    rcases List.mem_cons.mp ht with rfl | ht
    · exact Or.inr (by decide)
    · exact hv t ht
  · rfl
  · simp [evalTokens]

/-! ## C86: multisig redeem scripts -/

theorem matchSigs_iff (c : Bytes → Bytes → Bool) : ∀ (ks ss : List Bytes),
    matchSigs c ss ks = true ↔ ∃ l, l.Sublist ks ∧ List.Forall₂ (fun k s => c k s = true) l ss := by
  intro ks
  induction ks with
  | nil =>
    intro ss
    cases ss with
    | nil => simp [matchSigs]
    | cons s ss =>
      simp only [matchSigs, Bool.false_eq_true, List.sublist_nil, false_iff]
      rintro ⟨l, rfl, h⟩; cases h
  | cons k ks ih =>
    intro ss
    cases ss with
    | nil => simp [matchSigs]
    | cons s ss =>
      rw [matchSigs]
      constructor
      · intro h
        split_ifs at h with hc
        · obtain ⟨l, h1, h2⟩ := (ih ss).mp h
          exact ⟨k :: l, h1.cons_cons k, .cons hc h2⟩
        · obtain ⟨l, h1, h2⟩ := (ih (s :: ss)).mp h
          exact ⟨l, h1.cons k, h2⟩
      · rintro ⟨l, h1, h2⟩
        cases h2 with
        | @cons k' _ l' _ hc h2 =>
          split_ifs with hk
          · rw [ih]
            refine ⟨l', ?_, h2⟩
            cases h1 with
            | cons _ h1 => exact (List.sublist_cons_self k' l').trans h1
            | cons_cons _ h1 => exact h1
          · rw [ih]
            refine ⟨k' :: l', ?_, .cons hc h2⟩
            cases h1 with
            | cons _ h1 => exact h1
            | cons_cons _ h1 => exact absurd hc hk

theorem count_small (n : Nat) (h : n < 128) : count [UInt8.ofNat n] = some n := by
  have e : (UInt8.ofNat n).toNat = n := by rw [UInt8.toNat_ofNat']; exact Nat.mod_eq_of_lt (by omega)
  have : UInt8.ofNat n < 0x80 := by rw [UInt8.lt_iff_toNat_lt, e]; exact h
  simp [count, this, e]

/-- The tokens of a redeem script. -/
def multisigTokens (m : Nat) (keys : List Bytes) : List Token :=
  .op (UInt8.ofNat (0x50 + m)) :: (keys.map Token.direct ++ [.op (UInt8.ofNat (0x50 + keys.length)), .op 0xae])

theorem redeem_tokens (rs : RedeemScript) (m : Nat) (hm : rs.SignaturesRequired = m) (keys : List Bytes) (hp : keys.Perm rs.PublicKeys) (hs : keys.Pairwise lexLe) :
    (GetRedeemScript rs).1 = bytesOf (multisigTokens m keys) := by
  have hk : SortByteArrays rs.PublicKeys = keys := sorted_perm_unique ((C05_sort_perm _).trans hp.symm) (C05_sort_sorted _) hs
  have hb : ∀ n : Nat, Op.OpBASE + byteOfInt (n : Int) = UInt8.ofNat (0x50 + n) := by
    intro n
    have : byteOfInt (n : Int) = UInt8.ofNat (n % 256) := by
      unfold byteOfInt
      congr 1
    rw [this]
    apply UInt8.toNat_inj.mp
    simp [UInt8.toNat_add, Op.OpBASE]
  simp only [GetRedeemScript, hk, hm, hb, redeemKeys_tokens, multisigTokens]
  simp [bytesOf, Token.bytes, Token.header, Token.data, Op.OpCHECKMULTISIG]

theorem multisigTokens_valid (m : Nat) (hm : 1 ≤ m ∧ m ≤ 16) (keys : List Bytes) (hn : keys.length ≤ 16) (hk : ∀ k ∈ keys, 1 ≤ k.length ∧ k.length ≤ 75) :
    ∀ t ∈ multisigTokens m keys, t.Valid := by
  have hall : ∀ n : Nat, n ≤ 16 → (0x4e : UInt8) < UInt8.ofNat (0x50 + n) := by
    intro n hn
    rw [UInt8.lt_iff_toNat_lt, UInt8.toNat_ofNat', Nat.mod_eq_of_lt (by omega)]
    have h4e : (0x4e : UInt8).toNat = 78 := rfl
    omega
  intro t ht
  simp only [multisigTokens, List.mem_cons, List.mem_append, List.mem_map, List.not_mem_nil, or_false] at ht
  rcases ht with rfl | ⟨k, hk', rfl⟩ | rfl | rfl
  · exact Or.inr (hall m hm.2)
  · exact hk k hk'
  · exact Or.inr (hall _ hn)
  · exact Or.inr (by decide)

theorem eval_small (H : HashFns) (c : Bytes → Bytes → Bool) (n : Nat) (h : 1 ≤ n ∧ n ≤ 16) (st : List Bytes) :
    evalToken H c (.op (UInt8.ofNat (0x50 + n))) st = some ([UInt8.ofNat n] :: st) ∧ Token.op (UInt8.ofNat (0x50 + n)) ≠ .op 0x6a := by
  have hmem : n ∈ List.range' 1 16 := by rw [List.mem_range'_1]; omega
  have hall : ∀ n ∈ List.range' 1 16, UInt8.ofNat (0x50 + n) ≠ 0 ∧ UInt8.ofNat (0x50 + n) ≠ 0x76 ∧ UInt8.ofNat (0x50 + n) ≠ 0xa9 ∧ UInt8.ofNat (0x50 + n) ≠ 0x88 ∧
      UInt8.ofNat (0x50 + n) ≠ 0xac ∧ UInt8.ofNat (0x50 + n) ≠ 0x87 ∧ UInt8.ofNat (0x50 + n) ≠ 0x4f ∧ UInt8.ofNat (0x50 + n) ≠ 0x6a ∧
      (0x51 ≤ UInt8.ofNat (0x50 + n) ∧ UInt8.ofNat (0x50 + n) ≤ 0x60) ∧ UInt8.ofNat (0x50 + n) - 0x50 = UInt8.ofNat n := by decide +kernel
  obtain ⟨a1, a2, a3, a4, a5, a6, a7, a8, a9, a10⟩ := hall n hmem
  refine ⟨?_, by simpa using a8⟩
  simp only [evalToken, a1, a2, a3, a4, a5, a6, a7, a9, a10, if_false, and_self, if_true]

theorem eval_keys (H : HashFns) (c : Bytes → Bytes → Bool) : ∀ (keys st : List Bytes), evalTokens H c (keys.map Token.direct) st = some (keys.reverse ++ st) := by
  intro keys
  induction keys with
  | nil => intro st; rfl
  | cons k keys ih => intro st; simp [evalTokens, evalToken, ih]

theorem eval_multisig (H : HashFns) (c : Bytes → Bytes → Bool) (m : Nat) (hm : 1 ≤ m ∧ m ≤ 16) (keys : List Bytes) (hn : 1 ≤ keys.length ∧ keys.length ≤ 16)
    (st : List Bytes) : (∃ fin, evalTokens H c (multisigTokens m keys) st = some fin ∧ Truthy fin) ↔
      ∃ sigs dummy rest l, st = sigs ++ dummy :: rest ∧ sigs.length = m ∧ l.Sublist keys.reverse ∧ List.Forall₂ (fun k s => c k s = true) l sigs := by
  have h1 : evalTokens H c (multisigTokens m keys) st = checkMultiSig c ([UInt8.ofNat keys.length] :: (keys.reverse ++ [UInt8.ofNat m] :: st)) := by
    have hcm : evalToken H c (.op 0xae) = checkMultiSig c := by funext x; simp [evalToken]
    rw [multisigTokens, evalTokens, if_neg (eval_small H c m hm st).2, (eval_small H c m hm st).1, Option.bind_some,
      eval_append _ _ _ _ _ (by simp), eval_keys, Option.bind_some, evalTokens, if_neg (eval_small H c keys.length hn []).2,
      (eval_small H c keys.length hn _).1, Option.bind_some, evalTokens, if_neg (by simp), hcm]
    cases checkMultiSig c ([UInt8.ofNat keys.length] :: (keys.reverse ++ [UInt8.ofNat m] :: st)) <;> simp [evalTokens]
  rw [h1]
  have hp1 : popMany ([UInt8.ofNat keys.length] :: (keys.reverse ++ [UInt8.ofNat m] :: st)) = some (keys.reverse, [UInt8.ofNat m] :: st) := by
    simp only [popMany, count_small keys.length (by omega), Option.bind_some]
    rw [if_pos (by simp)]
    simp
  have hp2 : popMany ([UInt8.ofNat m] :: st) = if m ≤ st.length then some (st.take m, st.drop m) else none := by
    simp only [popMany, count_small m (by omega), Option.bind_some]
  unfold checkMultiSig
  rw [hp1, Option.bind_some, hp2]
  by_cases hlen : m ≤ st.length
  · rw [if_pos hlen, Option.bind_some]
    dsimp only
    rw [List.length_reverse, List.length_take, Nat.min_eq_left hlen]
    by_cases hmn : keys.length < m
    · rw [if_pos hmn]
      constructor
      · rintro ⟨_, h, -⟩; cases h
      · rintro ⟨sigs, dummy, rest, l, -, hl, h2, h3⟩
        have := h3.length_eq
        have := h2.length_le
        simp at this
        omega
    · rw [if_neg hmn]
      rcases hd : st.drop m with _ | ⟨dummy, rest⟩
      · dsimp only
        constructor
        · rintro ⟨_, h, -⟩; cases h
        · rintro ⟨sigs, dummy, rest, l, h1, hl, -⟩
          have := congrArg List.length hd
          rw [h1] at this
          simp at this; omega
      · dsimp only
        simp only [Option.some.injEq, exists_eq_left', truthy_bool, matchSigs_iff]
        have hst : st = st.take m ++ dummy :: rest := by rw [← hd, List.take_append_drop]
        constructor
        · rintro ⟨l, h2, h3⟩
          exact ⟨st.take m, dummy, rest, l, hst, by simp [hlen], h2, h3⟩
        · rintro ⟨sigs, dummy', rest', l, h1, hl, h2, h3⟩
          refine ⟨l, h2, ?_⟩
          rw [h1, ← hl, List.take_left]; exact h3
  · rw [if_neg hlen]
    constructor
    · rintro ⟨_, h, -⟩; cases h
    · rintro ⟨sigs, dummy, rest, l, h1, hl, -⟩
      rw [h1] at hlen; simp at hlen; omega

/-- What the items pushed by an unlocking script must be to satisfy `m` of `keys`: any items, one item that is ignored, then `m` signatures by `m` different
positions of the key list, in the order of the list. -/
def MultisigItems (signed : Bytes → Bytes → Prop) (m : Nat) (keys items : List Bytes) : Prop :=
  ∃ before dummy sigs signers, items = before ++ [dummy] ++ sigs ∧ sigs.length = m ∧ signers.Sublist keys ∧ List.Forall₂ signed signers sigs

theorem eval_multisig_items (H : HashFns) (verify : Bytes → Bytes → Bytes → Bool) (tx : Transaction) (k : Nat) (inp : Input) (code : Bytes) (sats : UInt64)
    (m : Nat) (hm : 1 ≤ m ∧ m ≤ 16) (keys : List Bytes) (hn : 1 ≤ keys.length ∧ keys.length ≤ 16) (items : List Bytes) :
    (∃ fin, evalTokens H (checkSigOf H verify tx k inp code sats) (multisigTokens m keys) items.reverse = some fin ∧ Truthy fin) ↔
      MultisigItems (SignedBy H verify tx k inp code sats) m keys items := by
  rw [eval_multisig H _ m hm keys hn]
  have himp : (fun a b => checkSigOf H verify tx k inp code sats a b = true) = SignedBy H verify tx k inp code sats := by
    funext a b; exact propext (checkSigOf_iff ..)
  constructor
  · rintro ⟨sigs, dummy, rest, l, h1, h2, h3, h4⟩
    refine ⟨rest.reverse, dummy, sigs.reverse, l.reverse, ?_, by simpa using h2, ?_, ?_⟩
    · have := congrArg List.reverse h1
      simpa using this
    · have := h3.reverse
      simpa using this
    · rw [himp] at h4
      exact List.forall₂_reverse_iff.mpr h4
  · rintro ⟨before, dummy, sigs, l, rfl, h2, h3, h4⟩
    refine ⟨sigs.reverse, dummy, before.reverse, l.reverse, by simp, by simpa using h2, h3.reverse, ?_⟩
    rw [himp]
    exact List.forall₂_reverse_iff.mpr h4

/-- C86: used as a locking script, the redeem script of `m` and the keys (sorted: `keys`) can be spent by exactly those inputs that push `m` signatures with
defined flags by different keys, in the sorted order of the keys, after one ignored item. -/
theorem C86_redeem_iff (H : HashFns) (verify : Bytes → Bytes → Bytes → Bool) (rs : RedeemScript) (m : Nat) (hr : rs.SignaturesRequired = m) (hm : 1 ≤ m ∧ m ≤ 16)
    (hn : 1 ≤ rs.PublicKeys.length ∧ rs.PublicKeys.length ≤ 16) (hk : ∀ k ∈ rs.PublicKeys, 1 ≤ k.length ∧ k.length ≤ 75) (keys : List Bytes)
    (hp : keys.Perm rs.PublicKeys) (hs : keys.Pairwise lexLe) (tx : Transaction) (k : Nat) (sats : UInt64) :
    Accepted H verify tx k (GetRedeemScript rs).1 sats ↔ ∃ (inp : Input) (unl : Bytes) (items : List Bytes), tx.Inputs[k]? = some inp ∧
      inp.UnlockingScript = some unl ∧ Pushes unl items ∧ MultisigItems (SignedBy H verify tx k inp (GetRedeemScript rs).1 sats) m keys items := by
  have hn' : 1 ≤ keys.length ∧ keys.length ≤ 16 := by rw [hp.length_eq]; exact hn
  have hv := multisigTokens_valid m hm keys hn'.2 (fun x hx => hk x (hp.mem_iff.mp hx))
  rw [accepted_iff H verify tx k _ sats _ (redeem_tokens rs m hr keys hp hs) hv]
  constructor
  · rintro ⟨inp, unl, items, fin, h1, h2, h3, h4, h5⟩
    exact ⟨inp, unl, items, h1, h2, h3, (eval_multisig_items H verify tx k inp _ sats m hm keys hn' items).mp ⟨fin, h4, h5⟩⟩
  · rintro ⟨inp, unl, items, h1, h2, h3, h4⟩
    obtain ⟨fin, g1, g2⟩ := (eval_multisig_items H verify tx k inp _ sats m hm keys hn' items).mpr h4
    exact ⟨inp, unl, items, fin, h1, h2, h3, g1, g2⟩

/-- C86, pay to script hash: an output with the redeem script's hash is spent by every input that pushes the redeem script last and before it items that satisfy
it. -/
theorem C86_p2sh_accepts (H : HashFns) (verify : Bytes → Bytes → Bytes → Bool) (rs : RedeemScript) (m : Nat) (hr : rs.SignaturesRequired = m) (hm : 1 ≤ m ∧ m ≤ 16)
    (hn : 1 ≤ rs.PublicKeys.length ∧ rs.PublicKeys.length ≤ 16) (hk : ∀ k ∈ rs.PublicKeys, 1 ≤ k.length ∧ k.length ≤ 75) (keys : List Bytes)
    (hp : keys.Perm rs.PublicKeys) (hs : keys.Pairwise lexLe) (tx : Transaction) (k : Nat) (sats : UInt64) (inp : Input) (unl : Bytes) (items : List Bytes)
    (hi : tx.Inputs[k]? = some inp) (hu : inp.UnlockingScript = some unl) (hpu : Pushes unl (items ++ [(GetRedeemScript rs).1]))
    (hit : MultisigItems (SignedBy H verify tx k inp (GetRedeemScript rs).1 sats) m keys items) :
    AcceptedP2SH H verify tx k (GetRedeemScriptHash H rs) sats := by
  have hn' : 1 ≤ keys.length ∧ keys.length ≤ 16 := by rw [hp.length_eq]; exact hn
  have hv := multisigTokens_valid m hm keys hn'.2 (fun x hx => hk x (hp.mem_iff.mp hx))
  obtain ⟨fin, g1, g2⟩ := (eval_multisig_items H verify tx k inp _ sats m hm keys hn' items).mpr hit
  exact ⟨inp, unl, _, items, _, fin, hi, hu, hpu, rfl, redeem_tokens rs m hr keys hp hs, hv, g1, g2⟩

/-- C86, and only those: an accepted input pushes last a script with the same HASH160 as the redeem script, and unless this is another script (a collision), the
items before it satisfy the redeem script. -/
theorem C86_p2sh_only (H : HashFns) (verify : Bytes → Bytes → Bytes → Bool) (rs : RedeemScript) (m : Nat) (hr : rs.SignaturesRequired = m) (hm : 1 ≤ m ∧ m ≤ 16)
    (hn : 1 ≤ rs.PublicKeys.length ∧ rs.PublicKeys.length ≤ 16) (hk : ∀ k ∈ rs.PublicKeys, 1 ≤ k.length ∧ k.length ≤ 75) (keys : List Bytes)
    (hp : keys.Perm rs.PublicKeys) (hs : keys.Pairwise lexLe) (tx : Transaction) (k : Nat) (sats : UInt64)
    (ha : AcceptedP2SH H verify tx k (GetRedeemScriptHash H rs) sats) :
    ∃ (inp : Input) (unl script : Bytes) (items : List Bytes), tx.Inputs[k]? = some inp ∧ inp.UnlockingScript = some unl ∧ Pushes unl (items ++ [script]) ∧
      H.ripemd160 (H.sha256 script) = H.ripemd160 (H.sha256 (GetRedeemScript rs).1) ∧
      (script ≠ (GetRedeemScript rs).1 ∨ MultisigItems (SignedBy H verify tx k inp (GetRedeemScript rs).1 sats) m keys items) := by
  have hn' : 1 ≤ keys.length ∧ keys.length ≤ 16 := by rw [hp.length_eq]; exact hn
  have hv := multisigTokens_valid m hm keys hn'.2 (fun x hx => hk x (hp.mem_iff.mp hx))
  have ht := redeem_tokens rs m hr keys hp hs
  obtain ⟨inp, unl, redeem, items, ts, fin, h1, h2, h3, h4, h5, h6, h7, h8⟩ := ha
  refine ⟨inp, unl, redeem, items, h1, h2, h3, h4, ?_⟩
  by_cases e : redeem = (GetRedeemScript rs).1
  · right
    have : ts = multisigTokens m keys := C09_tokens_unique _ _ h6 hv (by rw [← h5, e, ht])
    rw [e, this] at h7
    exact (eval_multisig_items H verify tx k inp _ sats m hm keys hn' items).mp ⟨fin, h7, h8⟩
  · exact Or.inl e

theorem not_multisigItems (signed : Bytes → Bytes → Prop) (m : Nat) (keys items : List Bytes) (h : keys.length < m) : ¬ MultisigItems signed m keys items := by
  rintro ⟨before, dummy, sigs, signers, -, h2, h3, h4⟩
  have := h4.length_eq
  have := h3.length_le
  omega

/-- C86, the code does not check it: when more signatures are required than keys were added, `GetRedeemScript` makes a script all the same, and no input of any
transaction can spend it, directly or (short of a HASH160 collision, whose other script the input must push) through its hash. -/
theorem C86_too_many_required (H : HashFns) (verify : Bytes → Bytes → Bytes → Bool) (rs : RedeemScript) (m : Nat) (hr : rs.SignaturesRequired = m)
    (hm : rs.PublicKeys.length < m ∧ m ≤ 16) (hn : 1 ≤ rs.PublicKeys.length) (hk : ∀ k ∈ rs.PublicKeys, 1 ≤ k.length ∧ k.length ≤ 75)
    (tx : Transaction) (k : Nat) (sats : UInt64) :
    ¬ Accepted H verify tx k (GetRedeemScript rs).1 sats ∧
    (AcceptedP2SH H verify tx k (GetRedeemScriptHash H rs) sats → ∃ (inp : Input) (unl script : Bytes) (items : List Bytes), tx.Inputs[k]? = some inp ∧
      inp.UnlockingScript = some unl ∧ Pushes unl (items ++ [script]) ∧
      H.ripemd160 (H.sha256 script) = H.ripemd160 (H.sha256 (GetRedeemScript rs).1) ∧ script ≠ (GetRedeemScript rs).1) := by
  have hp := C05_sort_perm rs.PublicKeys
  have hs := C05_sort_sorted rs.PublicKeys
  have hlt : (SortByteArrays rs.PublicKeys).length < m := by rw [hp.length_eq]; exact hm.1
  constructor
  · rw [C86_redeem_iff H verify rs m hr (by omega) (by omega) hk _ hp hs]
    rintro ⟨inp, unl, items, -, -, -, h4⟩
    exact not_multisigItems _ _ _ _ hlt h4
  · intro ha
    obtain ⟨inp, unl, script, items, h1, h2, h3, h4, h5⟩ := C86_p2sh_only H verify rs m hr (by omega) (by omega) hk _ hp hs tx k sats ha
    exact ⟨inp, unl, script, items, h1, h2, h3, h4, h5.resolve_right (not_multisigItems _ _ _ _ hlt)⟩

/-- C86, no keys: nobody can spend the script of a redeem script to which no key was added (the byte 0x50 in the place of the number of keys is reserved). -/
theorem C86_no_keys (H : HashFns) (verify : Bytes → Bytes → Bytes → Bool) (rs : RedeemScript) (m : Nat) (hr : rs.SignaturesRequired = m) (hm : 1 ≤ m ∧ m ≤ 16)
    (hn : rs.PublicKeys = []) (tx : Transaction) (k : Nat) (sats : UInt64) : ¬ Accepted H verify tx k (GetRedeemScript rs).1 sats := by
  have ht : (GetRedeemScript rs).1 = bytesOf (multisigTokens m []) := redeem_tokens rs m hr [] (by rw [hn]) (by simp)
  have hv := multisigTokens_valid m hm [] (by simp) (by simp)
  rw [accepted_iff H verify tx k _ sats _ ht hv]
  rintro ⟨inp, unl, items, fin, -, -, -, h4, -⟩
  rw [multisigTokens, evalTokens, if_neg (eval_small H (fun _ _ => true) m hm []).2, (eval_small H _ m hm _).1, Option.bind_some] at h4
  simp [evalTokens, evalToken] at h4

/-! ## Examples -/

/-- A toy signature scheme: the signature of a key is the key. -/
def selfVerify (pub _d s : Bytes) : Bool := s == pub

/-- `exMany` with an unlocking script in the first input. -/
def exUnlocked (unl : Bytes) : Transaction := withUnlocking exMany 0 unl

theorem exUnlocked_input (unl : Bytes) : ∃ inp, (exUnlocked unl).Inputs[0]? = some inp ∧ inp.UnlockingScript = some unl :=
  ⟨_, rfl, rfl⟩

theorem self_signed (H : HashFns) (tx : Transaction) (k : Nat) (inp : Input) (code : Bytes) (sats : UInt64) (pub : Bytes) :
    SignedBy H selfVerify tx k inp code sats pub (pub ++ [0x41]) := ⟨pub, 0x41, rfl, by decide, by simp [selfVerify]⟩

/-- C83: an extra item, the signature and the key spend; so does nothing without a flag that is defined. -/
example : Accepted toyH selfVerify (exUnlocked ([[7, 7], [2, 3, 4, 0x41], [2, 3, 4]].flatMap push)) 0 (p2pkh (toyH.ripemd160 (toyH.sha256 [2, 3, 4]))) 5 := by
  obtain ⟨inp, h1, h2⟩ := exUnlocked_input ([[7, 7], [2, 3, 4, 0x41], [2, 3, 4]].flatMap push)
  exact (C83_p2pkh_iff toyH selfVerify _ 0 _ (toyH.ripemd160_length _) 5).mpr
    ⟨inp, _, [[7, 7]], [2, 3, 4, 0x41], [2, 3, 4], h1, h2, (pushes_iff _ _ (by simp)).mpr rfl, rfl, self_signed toyH _ _ _ _ _ [2, 3, 4]⟩

/-- C83, undefined flag: such a signer, a successful `Sign`. -/
def oddSigner : InternalSigner := { toySigner with SigHashFlag := 1 }

theorem exMany_payTo (h : Bytes) (he : h = toyH.ripemd160 (toyH.sha256 toySigner.pubKey)) :
    exMany.Inputs[(0 : UInt32).toNat]? = some ⟨List.replicate 64 49, 1, 5, some (p2pkh h), none, 1⟩ := by
  subst he; rfl

example : ∃ tx' h, h = toyH.ripemd160 (toyH.sha256 toySigner.pubKey) ∧ oddSigner.Sign toyH 0 exMany = .ok tx' ∧ ¬ Accepted toyH toyVerify tx' 0 (p2pkh h) 5 := by
  obtain ⟨h, he⟩ : ∃ h, h = toyH.ripemd160 (toyH.sha256 toySigner.pubKey) := ⟨_, rfl⟩
  have hl : h.length = 20 := by rw [he]; exact toyH.ripemd160_length _
  have e0 := exMany_payTo h he
  have hok := (C47_domain toyH oddSigner (fun d => rfl) exMany exMany_sized 0).mpr ⟨_, _, e0, by simp, rfl⟩
  rcases hs : oddSigner.Sign toyH 0 exMany with tx' | e | _
  · exact ⟨tx', h, he, rfl, C83_undefined_flag toyH toyVerify oddSigner toySigner_sized (by decide) exMany exMany_sized 0 tx' hs h hl 5⟩
  · rw [hs] at hok; cases hok
  · rw [hs] at hok; cases hok

/-- C84: a hash puzzle, and the input that solves it. -/
example : ∃ o, Output.NewHashPuzzle toyH b!"secret" (hexEncode (toyH.ripemd160 (toyH.sha256 [2, 3, 4]))) 5 = .ok o ∧
    Accepted toyH selfVerify (exUnlocked ([[2, 3, 4, 0x41], [2, 3, 4], b!"secret"].flatMap push)) 0 o.LockingScript o.Satoshis := by
  obtain ⟨p, -, -, h2, -⟩ := C21_hashPuzzle toyH b!"secret" (toyH.ripemd160 (toyH.sha256 [2, 3, 4])) 5 (toyH.ripemd160_length _)
  refine ⟨_, h2, ?_⟩
  obtain ⟨inp, h1, hu⟩ := exUnlocked_input ([[2, 3, 4, 0x41], [2, 3, 4], b!"secret"].flatMap push)
  exact (C84_hashPuzzle_iff toyH selfVerify _ _ (toyH.ripemd160_length _) 5 _ h2 _ 0).mpr
    ⟨inp, _, [], [2, 3, 4, 0x41], [2, 3, 4], b!"secret", h1, hu, (pushes_iff _ _ (by decide)).mpr rfl, rfl, rfl, self_signed toyH _ _ _ _ _ [2, 3, 4]⟩

/-- C85: data outputs exist; and a bare OP_RETURN output can be spent. -/
example : (Output.NewOpReturnParts [[1, 2, 3], []]).isOk = true ∧
    Accepted toyH selfVerify (exUnlocked [0x51]) 0 [0x6a, 0x01, 0x07] 5 := by
  refine ⟨by decide +kernel, ?_⟩
  obtain ⟨inp, h1, h2⟩ := exUnlocked_input [0x51]
  exact (C85_bare_return_spendable toyH selfVerify _ 0 inp 5 h1 h2 [.direct [7]] (by
    intro t ht
    rw [List.mem_singleton.mp ht]
    exact ⟨by decide, by decide⟩)).2

/-- C86: two of three keys. -/
def exTwoOfThree : RedeemScript := { SignaturesRequired := 2, PublicKeys := [[3, 9], [2, 5], [2, 4]], Signatures := [] }

theorem exTwoOfThree_sorted : [[2, 4], [2, 5], [3, 9]].Pairwise lexLe := by
  have : SortByteArrays [[3, 9], [2, 5], [2, 4]] = [[2, 4], [2, 5], [3, 9]] := by decide +kernel
  rw [← this]
  exact C05_sort_sorted _

theorem exTwoOfThree_items (H : HashFns) (tx : Transaction) (k : Nat) (inp : Input) (code : Bytes) (sats : UInt64) :
    MultisigItems (SignedBy H selfVerify tx k inp code sats) 2 [[2, 4], [2, 5], [3, 9]] [[], [2, 4, 0x41], [3, 9, 0x41]] :=
  ⟨[], [], [[2, 4, 0x41], [3, 9, 0x41]], [[2, 4], [3, 9]], rfl, rfl, by decide, .cons (self_signed H _ _ _ _ _ [2, 4]) (.cons (self_signed H _ _ _ _ _ [3, 9]) .nil)⟩

example : Accepted toyH selfVerify (exUnlocked ([[], [2, 4, 0x41], [3, 9, 0x41]].flatMap push)) 0 (GetRedeemScript exTwoOfThree).1 5 := by
  obtain ⟨inp, h1, h2⟩ := exUnlocked_input ([[], [2, 4, 0x41], [3, 9, 0x41]].flatMap push)
  exact (C86_redeem_iff toyH selfVerify exTwoOfThree 2 rfl (by decide) (by decide) (by decide) [[2, 4], [2, 5], [3, 9]] (by decide) exTwoOfThree_sorted _ 0 5).mpr
    ⟨inp, _, _, h1, h2, (pushes_iff _ _ (by decide)).mpr rfl, exTwoOfThree_items toyH _ _ _ _ _⟩

example : AcceptedP2SH toyH selfVerify (exUnlocked (([[], [2, 4, 0x41], [3, 9, 0x41]] ++ [(GetRedeemScript exTwoOfThree).1]).flatMap push)) 0
    (GetRedeemScriptHash toyH exTwoOfThree) 5 := by
  obtain ⟨inp, h1, h2⟩ := exUnlocked_input (([[], [2, 4, 0x41], [3, 9, 0x41]] ++ [(GetRedeemScript exTwoOfThree).1]).flatMap push)
  exact C86_p2sh_accepts toyH selfVerify exTwoOfThree 2 rfl (by decide) (by decide) (by decide) [[2, 4], [2, 5], [3, 9]] (by decide) exTwoOfThree_sorted _ 0 5 inp _
    [[], [2, 4, 0x41], [3, 9, 0x41]] h1 h2 ((pushes_iff _ _ (by decide +kernel)).mpr rfl) (exTwoOfThree_items toyH _ _ _ _ _)

/-- C86: in the wrong order the same signatures do not satisfy the script. -/
example : ¬ MultisigItems (fun k s => s = k ++ [0x41]) 2 [[2, 4], [2, 5], [3, 9]] [[], [3, 9, 0x41], [2, 4, 0x41]] := by
  rintro ⟨before, dummy, sigs, signers, h1, h2, h3, h4⟩
  have hlen := congrArg List.length h1
  simp only [List.length_append, List.length_cons, List.length_nil, h2] at hlen
  have hb : before = [] := List.length_eq_zero_iff.mp (by omega)
  rw [hb, List.nil_append, List.singleton_append, List.cons.injEq] at h1
  rw [← h1.2] at h4
  cases h4 with
  | @cons a _ l _ e1 h4 =>
    cases h4 with
    | @cons b _ l' _ e2 h4 =>
      cases h4
      have ea : a = [3, 9] := List.append_cancel_right (bs := [0x41]) (by rw [← e1]; rfl)
      have eb : b = [2, 4] := List.append_cancel_right (bs := [0x41]) (by rw [← e2]; rfl)
      subst ea eb
      revert h3
      decide

/-- C86: 3 of 2 keys, and no keys. -/
example : (([[3, 9], [2, 5]] : List Bytes).length < 3 ∧ 3 ≤ 16) ∧
    ¬ Accepted toyH selfVerify exMany 0 (GetRedeemScript { SignaturesRequired := 3, PublicKeys := [[3, 9], [2, 5]], Signatures := [] }).1 5 :=
  ⟨by decide, (C86_too_many_required toyH selfVerify { SignaturesRequired := 3, PublicKeys := [[3, 9], [2, 5]], Signatures := [] } 3 rfl (by decide) (by decide) (by decide) _ 0 5).1⟩

end Verif.Props
