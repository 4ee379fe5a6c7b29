import Verif.Model.Work
import Verif.Lemmas.TxCodec
import Verif.Lemmas.PushData
import Verif.Props.Redeem
import Verif.Props.Merkle
/-!
# C107: the work done for untrusted data is bounded by its size
-/
namespace Verif.Props
open Verif Spec Transaction

/-! ## The counter -/

@[simp] theorem work_bind_res {α β : Type} (x : Work α) (f : α → Work β) : (x >>= f).res = x.res >>= fun a => (f a).res := by
  rcases x with ⟨n, _ | _ | _⟩ <;> rfl

theorem work_bind_count {α β : Type} (x : Work α) (f : α → Work β) :
    (x >>= f).count = x.count + match x.res with | .ok a => (f a).count | _ => 0 := by
  rcases x with ⟨n, _ | _ | _⟩ <;> rfl

@[simp] theorem work_pure_res {α : Type} (a : α) : (pure a : Work α).res = .ok a := rfl
@[simp] theorem work_pure_count {α : Type} (a : α) : (pure a : Work α).count = 0 := rfl
@[simp] theorem work_free_res {α : Type} (r : Res α) : (Work.free r).res = r := rfl
@[simp] theorem work_free_count {α : Type} (r : Res α) : (Work.free r).count = 0 := rfl
@[simp] theorem work_tick_res (n : Nat) : (Work.tick n).res = .ok () := rfl
@[simp] theorem work_tick_count (n : Nat) : (Work.tick n).count = n := rfl

theorem work_free_bind {α β : Type} (r : Res α) (f : α → Work β) :
    (Work.free r >>= f) = match r with | .ok a => f a | .err m => ⟨0, .err m⟩ | .panic => ⟨0, .panic⟩ := by
  cases r with
  | ok a => show (⟨0 + (f a).count, (f a).res⟩ : Work β) = f a; rw [Nat.zero_add]
  | err m => rfl
  | panic => rfl

theorem work_free_ok_bind {α β : Type} (a : α) (f : α → Work β) : (Work.free (.ok a) >>= f) = f a := work_free_bind _ _

/-! ## Parsing a transaction -/

theorem readInputsW_res (n : Nat) : ∀ b off, (readInputsW n b off).res = readInputs n b off := by
  induction n with
  | zero => intros; rfl
  | succ n ih =>
    intro b off
    simp only [readInputsW, readInputs, work_bind_res, work_free_res, work_tick_res, Res.ok_bind, work_pure_res, ih, Res.pure_eq]

theorem readOutputsW_res (n : Nat) : ∀ b off, (readOutputsW n b off).res = readOutputs n b off := by
  induction n with
  | zero => intros; rfl
  | succ n ih =>
    intro b off
    simp only [readOutputsW, readOutputs, work_bind_res, work_free_res, work_tick_res, Res.ok_bind, work_pure_res, ih, Res.pure_eq]

/-- C107 (model): without the counter, the counted parser is the parser. -/
theorem C107_parse_model (b : Slice) : (NewFromBytesW b).res = Transaction.NewFromBytes b := by
  unfold NewFromBytesW Transaction.NewFromBytes
  split
  · rfl
  · simp only [work_bind_res, work_free_res, readInputsW_res, readOutputsW_res]
    congr 1; funext vs; congr 1; funext version; congr 1; funext s; congr 1; funext ⟨ic, size⟩
    dsimp only; congr 1; funext ⟨ins, off⟩; dsimp only; congr 1; funext s; congr 1; funext ⟨oc, size⟩; dsimp only
    congr 1; funext ⟨outs, off⟩; dsimp only; congr 1; funext nLT
    split
    · rfl
    · simp only [work_bind_res, work_free_res]; rfl

/-- After `n` successes from `pre`, at most one failing call. -/
theorem readInputsW_count (n : Nat) : ∀ (pre d sp : Bytes), (pre ++ d).length + sp.length < 2 ^ 62 →
    match (readInputsW n ⟨pre ++ d, sp⟩ (pre.length : Int)).res with
    | .ok (xs, off) => (readInputsW n ⟨pre ++ d, sp⟩ (pre.length : Int)).count = xs.length ∧ xs.length = n ∧
        ∃ e rest, d = e ++ rest ∧ off = ((pre ++ e).length : Int) ∧ 41 * n ≤ e.length
    | _ => 41 * (readInputsW n ⟨pre ++ d, sp⟩ (pre.length : Int)).count ≤ d.length + 41 := by
  induction n with
  | zero => intro pre d sp _; exact ⟨rfl, rfl, [], d, rfl, by simp, by simp⟩
  | succ n ih =>
    intro pre d sp hcap
    have hcap' : d.length + sp.length < 2 ^ 62 := by rw [List.length_append] at hcap; omega
    have e1 : readInputsW (n + 1) ⟨pre ++ d, sp⟩ (pre.length : Int) = (do
        Work.tick 1
        let (i, size) ← Work.free (Input.NewFromBytes ⟨d, sp⟩)
        let (is, off) ← readInputsW n ⟨pre ++ d, sp⟩ (wrap64 ((pre.length : Int) + size))
        pure (i :: is, off)) := by
      rw [readInputsW, sliceFrom_append pre d sp _ rfl, work_free_ok_bind]
    rw [e1]
    rcases hx : Input.NewFromBytes ⟨d, sp⟩ with ⟨x, size⟩ | m | _
    · obtain ⟨f, rest, rfl, hi, rfl⟩ := (input_parse_iff d sp hcap' x size).mp hx
      have hf : 41 ≤ f.length := by
        obtain ⟨txid, count, scr, h1, h2, rfl, _⟩ := hi
        have := (compactSize_length_pos h2).1
        simp [h1]; omega
      have hi := ih (pre ++ f) rest sp (by simpa using hcap)
      simp only [work_bind_res, work_bind_count, work_tick_res, work_tick_count, work_free_res, work_free_count, Res.ok_bind]
      rw [wrap64_eq (by omega) (by simp only [List.length_append] at hcap; omega), ← List.append_assoc, ← Nat.cast_add, ← List.length_append]
      rcases hw : (readInputsW n ⟨pre ++ f ++ rest, sp⟩ ((pre ++ f).length : Int)).res with ⟨xs, off⟩ | m | _ <;> rw [hw] at hi <;> simp only at hi ⊢
      · obtain ⟨h1, h2, e, r2, rfl, h3, h4⟩ := hi
        refine ⟨?_, by simp [h2], f ++ e, r2, by simp, by rw [h3]; simp, by simp; omega⟩
        simp only [h1, work_pure_count, List.length_cons]; omega
      · simp only [Res.err_bind, List.length_append] at hi ⊢; omega
      · simp only [Res.panic_bind, List.length_append] at hi ⊢; omega
    · simp [work_bind_count]
    · simp [work_bind_count]

theorem readOutputsW_count (n : Nat) : ∀ (pre d sp : Bytes), (pre ++ d).length + sp.length < 2 ^ 62 →
    match (readOutputsW n ⟨pre ++ d, sp⟩ (pre.length : Int)).res with
    | .ok (xs, off) => (readOutputsW n ⟨pre ++ d, sp⟩ (pre.length : Int)).count = xs.length ∧ xs.length = n ∧
        ∃ e rest, d = e ++ rest ∧ off = ((pre ++ e).length : Int) ∧ 9 * n ≤ e.length
    | _ => 9 * (readOutputsW n ⟨pre ++ d, sp⟩ (pre.length : Int)).count ≤ d.length + 9 := by
  induction n with
  | zero => intro pre d sp _; exact ⟨rfl, rfl, [], d, rfl, by simp, by simp⟩
  | succ n ih =>
    intro pre d sp hcap
    have hcap' : d.length + sp.length < 2 ^ 62 := by rw [List.length_append] at hcap; omega
    have e1 : readOutputsW (n + 1) ⟨pre ++ d, sp⟩ (pre.length : Int) = (do
        Work.tick 1
        let (i, size) ← Work.free (Output.NewFromBytes ⟨d, sp⟩)
        let (is, off) ← readOutputsW n ⟨pre ++ d, sp⟩ (wrap64 ((pre.length : Int) + size))
        pure (i :: is, off)) := by
      rw [readOutputsW, sliceFrom_append pre d sp _ rfl, work_free_ok_bind]
    rw [e1]
    rcases hx : Output.NewFromBytes ⟨d, sp⟩ with ⟨x, size⟩ | m | _
    · obtain ⟨f, rest, rfl, hi, rfl⟩ := (output_parse_iff d sp hcap' x size).mp hx
      have hf : 9 ≤ f.length := by
        obtain ⟨count, h2, rfl⟩ := hi
        have := (compactSize_length_pos h2).1
        simp; omega
      have hi := ih (pre ++ f) rest sp (by simpa using hcap)
      simp only [work_bind_res, work_bind_count, work_tick_res, work_tick_count, work_free_res, work_free_count, Res.ok_bind]
      rw [wrap64_eq (by omega) (by simp only [List.length_append] at hcap; omega), ← List.append_assoc, ← Nat.cast_add, ← List.length_append]
      rcases hw : (readOutputsW n ⟨pre ++ f ++ rest, sp⟩ ((pre ++ f).length : Int)).res with ⟨xs, off⟩ | m | _ <;> rw [hw] at hi <;> simp only at hi ⊢
      · obtain ⟨h1, h2, e, r2, rfl, h3, h4⟩ := hi
        refine ⟨?_, by simp [h2], f ++ e, r2, by simp, by rw [h3]; simp, by simp; omega⟩
        simp only [h1, work_pure_count, List.length_cons]; omega
      · simp only [Res.err_bind, List.length_append] at hi ⊢; omega
      · simp only [Res.panic_bind, List.length_append] at hi ⊢; omega
    · simp [work_bind_count]
    · simp [work_bind_count]

theorem work_bind_free {α β : Type} (x : Work α) (f : α → Work β) (h : ∀ a, (f a).count = 0) : (x >>= f).count = x.count := by
  rw [work_bind_count]
  split
  · rw [h]; rfl
  · rfl

theorem readInputsW_beyond (n : Nat) (b : Slice) (off : Int) (h : (b.len : Int) < off) : (readInputsW n b off).count = 0 := by
  cases n with
  | zero => rfl
  | succ n =>
    have : b.sliceFrom off = .panic := by unfold Slice.sliceFrom; rw [if_neg (by omega)]
    rw [readInputsW, this, work_free_bind]

theorem readInputsW_beyond_off (n : Nat) (b : Slice) (off : Int) (h : (b.len : Int) < off) {xs o} (hr : (readInputsW n b off).res = .ok (xs, o)) : o = off := by
  cases n with
  | zero => rw [readInputsW_res] at hr; simp [readInputs] at hr; exact hr.2.symm
  | succ n =>
    have : b.sliceFrom off = .panic := by unfold Slice.sliceFrom; rw [if_neg (by omega)]
    rw [readInputsW, this, work_free_bind] at hr; simp at hr

theorem readOutputsW_beyond (n : Nat) (b : Slice) (off : Int) (h : (b.len : Int) < off) : (readOutputsW n b off).count = 0 := by
  cases n with
  | zero => rfl
  | succ n =>
    have : b.sliceFrom off = .panic := by unfold Slice.sliceFrom; rw [if_neg (by omega)]
    rw [readOutputsW, this, work_free_bind]

/-- C107: for every byte slice, whatever counts it announces and however parsing ends, the parser makes at most `(len+4)/9` loop iterations. -/
theorem C107_parse_bound (d sp : Bytes) (hcap : d.length + sp.length < 2 ^ 62) : 9 * (NewFromBytesW ⟨d, sp⟩).count ≤ d.length + 4 := by
  unfold NewFromBytesW
  split
  · simp
  rename_i hlen
  simp only [Slice.len] at hlen
  obtain ⟨ver, d1, rfl, hv⟩ := exists_split 4 (by omega : 4 ≤ d.length)
  have e1 : (⟨ver ++ d1, sp⟩ : Slice).sliceRange 0 4 = .ok ⟨ver, d1 ++ sp⟩ := by
    have := sliceRange_append [] ver d1 sp 0 4 (by simp) (by simp [hv])
    simpa using this
  have e2 : getUint32 ver = .ok (UInt32.ofNat (leNat ver)) := by simpa using getUint32_of_length (t := []) hv
  have e3 := sliceFrom_append ver d1 sp 4 (by simp [hv])
  rw [e1, work_free_ok_bind, e2, work_free_ok_bind]
  dsimp only
  rw [e3, work_free_ok_bind, work_free_bind]
  rcases hd : DecodeVarInt ⟨d1, sp⟩ with ⟨l, size⟩ | m | _
  rotate_left
  · simp
  · simp
  dsimp only
  obtain ⟨⟨hs1, hs9, _⟩, hsp⟩ := decodeVarInt_split hd
  rw [wrap64_eq (x := 4 + (size : Int)) (by omega) (by omega), work_bind_count]
  by_cases hsz : size ≤ d1.length
  rotate_left
  · have hb : ((⟨ver ++ d1, sp⟩ : Slice).len : Int) < 4 + (size : Int) := by simp [Slice.len, hv]; omega
    rw [readInputsW_beyond _ _ _ hb]
    rcases hr : (readInputsW l.toNat ⟨ver ++ d1, sp⟩ (4 + (size : Int))).res with ⟨xs, o⟩ | m | _
    · have ho := readInputsW_beyond_off _ _ _ hb hr
      dsimp only
      have : (⟨ver ++ d1, sp⟩ : Slice).sliceFrom o = .panic := by unfold Slice.sliceFrom; rw [if_neg (by omega)]
      rw [this, work_free_bind]; simp
    · simp
    · simp
  obtain ⟨ci, d2, rfl, hci, rfl⟩ := hsp hsz
  have hci1 := (compactSize_length_pos hci).1
  have hoff : (4 + (ci.length : Int)) = ((ver ++ ci).length : Int) := by simp [hv]
  rw [hoff, ← List.append_assoc]
  have key := readInputsW_count l.toNat (ver ++ ci) d2 sp (by simpa using hcap)
  rcases hr : (readInputsW l.toNat ⟨ver ++ ci ++ d2, sp⟩ ((ver ++ ci).length : Int)).res with ⟨ins, off⟩ | m | _ <;> rw [hr] at key <;> simp only at key ⊢
  rotate_left
  · simp only [List.length_append, hv] at key ⊢; omega
  · simp only [List.length_append, hv] at key ⊢; omega
  obtain ⟨k1, k2, bi, d3, rfl, rfl, k3⟩ := key
  rw [k1, k2]
  have e4 := sliceFrom_append (ver ++ ci ++ bi) d3 sp ((ver ++ ci ++ bi).length : Int) rfl
  have ed : ver ++ ci ++ (bi ++ d3) = ver ++ ci ++ bi ++ d3 := by simp
  have ed0 : ver ++ (ci ++ (bi ++ d3)) = ver ++ ci ++ bi ++ d3 := by simp
  rw [ed0] at hcap
  rw [ed, e4, work_free_ok_bind, work_free_bind]
  have hlen3 : (ver ++ ci ++ bi ++ d3).length = 4 + ci.length + bi.length + d3.length := by simp [hv]; omega
  rcases hd' : DecodeVarInt ⟨d3, sp⟩ with ⟨m, size⟩ | m | _
  rotate_left
  · simp only [hlen3]; omega
  · simp only [hlen3]; omega
  dsimp only
  obtain ⟨⟨hs1', hs9', _⟩, hsp'⟩ := decodeVarInt_split hd'
  have hbi : ((ver ++ ci ++ bi).length : Int) < 2 ^ 62 := by rw [List.length_append] at hcap; omega
  rw [wrap64_eq (x := ((ver ++ ci ++ bi).length : Int) + (size : Int)) (by omega) (by omega), work_bind_free]
  rotate_left
  · rintro ⟨a, b⟩
    dsimp only
    rw [work_bind_count]
    simp only [work_free_res, work_free_count, Nat.zero_add]
    split
    · split
      · rfl
      · rw [work_bind_count]; simp only [work_free_res, work_free_count, Nat.zero_add]; split <;> rfl
    · rfl
  by_cases hsz' : size ≤ d3.length
  rotate_left
  · rw [readOutputsW_beyond _ _ _ (by simp only [Slice.len, List.length_append (as := ver ++ ci ++ bi)]; omega)]
    simp only [hlen3]; omega
  obtain ⟨co, d4, rfl, hco, rfl⟩ := hsp' hsz'
  have hco1 := (compactSize_length_pos hco).1
  rw [← Nat.cast_add, ← List.length_append, ← List.append_assoc]
  have key := readOutputsW_count m.toNat (ver ++ ci ++ bi ++ co) d4 sp (by simpa using hcap)
  have hlen4 : (ver ++ ci ++ bi ++ co ++ d4).length = 4 + ci.length + bi.length + co.length + d4.length := by simp [hv]; omega
  rw [hlen4]
  rcases hr' : (readOutputsW m.toNat ⟨ver ++ ci ++ bi ++ co ++ d4, sp⟩ ((ver ++ ci ++ bi ++ co).length : Int)).res with ⟨outs, off⟩ | e | _ <;> rw [hr'] at key <;> simp only at key
  · obtain ⟨k1', k2', bo, d5, rfl, _, k3'⟩ := key
    rw [k1', k2', List.length_append]; omega
  · omega
  · omega

/-- C107: a successful parse makes one iteration per input and output it returns. -/
theorem C107_parse_success (d sp : Bytes) (tx : Transaction) (h : Transaction.NewFromBytes ⟨d, sp⟩ = .ok tx) :
    (NewFromBytesW ⟨d, sp⟩).count = tx.Inputs.length + tx.Outputs.length := by
  have cin : ∀ (n : Nat) (b : Slice) (off : Int) xs o, (readInputsW n b off).res = .ok (xs, o) → (readInputsW n b off).count = xs.length := by
    intro n
    induction n with
    | zero => intro b off xs o h; simp [readInputsW] at h ⊢; simp [h.1]
    | succ n ih =>
      intro b off xs o h
      rw [readInputsW] at h ⊢
      rw [work_free_bind] at h ⊢
      rcases hs : b.sliceFrom off with s | m | _ <;> rw [hs] at h <;> simp only at h ⊢
      rotate_left
      · cases h
      · cases h
      rw [work_bind_res, work_tick_res, Res.ok_bind, work_free_bind] at h
      rw [work_bind_count, work_tick_res, work_free_bind]
      rcases hx : Input.NewFromBytes s with ⟨x, size⟩ | m | _ <;> rw [hx] at h <;> simp only at h ⊢
      rotate_left
      · cases h
      · cases h
      rw [work_bind_res] at h
      obtain ⟨⟨ys, o'⟩, hy, h⟩ := Res.bind_eq_ok.mp h
      rw [work_bind_count, hy, ih _ _ _ _ hy]
      simp at h ⊢
      rw [← h.1]; simp; omega
  have cout : ∀ (n : Nat) (b : Slice) (off : Int) xs o, (readOutputsW n b off).res = .ok (xs, o) → (readOutputsW n b off).count = xs.length := by
    intro n
    induction n with
    | zero => intro b off xs o h; simp [readOutputsW] at h ⊢; simp [h.1]
    | succ n ih =>
      intro b off xs o h
      rw [readOutputsW] at h ⊢
      rw [work_free_bind] at h ⊢
      rcases hs : b.sliceFrom off with s | m | _ <;> rw [hs] at h <;> simp only at h ⊢
      rotate_left
      · cases h
      · cases h
      rw [work_bind_res, work_tick_res, Res.ok_bind, work_free_bind] at h
      rw [work_bind_count, work_tick_res, work_free_bind]
      rcases hx : Output.NewFromBytes s with ⟨x, size⟩ | m | _ <;> rw [hx] at h <;> simp only at h ⊢
      rotate_left
      · cases h
      · cases h
      rw [work_bind_res] at h
      obtain ⟨⟨ys, o'⟩, hy, h⟩ := Res.bind_eq_ok.mp h
      rw [work_bind_count, hy, ih _ _ _ _ hy]
      simp at h ⊢
      rw [← h.1]; simp; omega
  rw [← C107_parse_model] at h
  unfold NewFromBytesW at h ⊢
  split at h
  · cases h
  rename_i hlen
  rw [if_neg hlen]
  simp only [work_bind_res, work_free_res] at h
  obtain ⟨vs, h1, h⟩ := Res.bind_eq_ok.mp h
  obtain ⟨v, h2, h⟩ := Res.bind_eq_ok.mp h
  obtain ⟨s1, h3, h⟩ := Res.bind_eq_ok.mp h
  obtain ⟨⟨l, size⟩, h4, h⟩ := Res.bind_eq_ok.mp h
  obtain ⟨⟨ins, off⟩, h5, h⟩ := Res.bind_eq_ok.mp h
  obtain ⟨s2, h6, h⟩ := Res.bind_eq_ok.mp h
  obtain ⟨⟨m, size2⟩, h7, h⟩ := Res.bind_eq_ok.mp h
  obtain ⟨⟨outs, off2⟩, h8, h⟩ := Res.bind_eq_ok.mp h
  obtain ⟨nl, h9, h⟩ := Res.bind_eq_ok.mp h
  dsimp only at h5 h6 h7 h8 h9 h
  split at h
  · cases h
  rename_i hnl
  rw [work_bind_res, work_free_res] at h
  obtain ⟨lt, h10, h⟩ := Res.bind_eq_ok.mp h
  simp only [work_pure_res, Res.ok.injEq] at h
  subst h
  rw [h1, work_free_ok_bind, h2, work_free_ok_bind]
  dsimp only
  rw [h3, work_free_ok_bind, h4, work_free_ok_bind]
  dsimp only
  rw [work_bind_count, h5, cin _ _ _ _ _ h5]
  dsimp only
  rw [h6, work_free_ok_bind, h7, work_free_ok_bind]
  dsimp only
  rw [work_bind_count, h8, cout _ _ _ _ _ h8]
  dsimp only
  rw [h9, work_free_ok_bind, if_neg hnl, h10, work_free_ok_bind]
  rfl

/-- 43 bytes that announce 2^64-1 inputs cost one iteration, 45 bytes that announce 2^64-1 outputs four, the empty transaction none. -/
example : (NewFromBytesW (Slice.exact ([1, 0, 0, 0, 255, 255, 255, 255, 255, 255, 255, 255, 255] ++ List.replicate 30 0))).count = 1 ∧
    (NewFromBytesW (Slice.exact ([1, 0, 0, 0, 0, 255, 255, 255, 255, 255, 255, 255, 255, 255] ++ List.replicate 31 0))).count = 4 ∧
    (NewFromBytesW (Slice.exact (List.replicate 10 0))).count = 0 ∧ (NewFromBytesW (Slice.exact (List.replicate 10 0))).res.isOk = true := by decide +kernel

/-! ## Splitting a script -/

theorem decodeLoopW_res (fuel : Nat) : ∀ b, (decodeLoopW fuel b).2 = decodeLoop fuel b := by
  induction fuel with
  | zero => intro b; rfl
  | succ n ih =>
    intro b
    rw [decodeLoopW, decodeLoop]
    rcases decodeStep b with e | ⟨p, r⟩
    · cases e <;> rfl
    · simp only [← ih]

/-- C107 (model): without the counter, the counted loop is the loop of `DecodeParts`. -/
theorem C107_decode_model (b : Bytes) : (decodeLoopW (b.length + 1) b).2 = DecodePartsFull b := decodeLoopW_res _ _

theorem decodeLoopW_count (fuel : Nat) : ∀ b : Bytes, (decodeLoopW fuel b).1 ≤ b.length ∧ ((decodeLoopW fuel b).2.1.map List.length).sum ≤ b.length ∧
    (decodeLoopW fuel b).1 = (decodeLoopW fuel b).2.1.length + (if (decodeLoopW fuel b).2.2 = .done then 0 else 1) := by
  induction fuel with
  | zero => intro b; simp [decodeLoopW]
  | succ n ih =>
    intro b
    rw [decodeLoopW]
    rcases decodeStep_cases b with ⟨_, h⟩ | ⟨t, rest, _, _, rfl, h⟩ | ⟨⟨ht, _⟩, _, h⟩ | ⟨hb, h⟩ <;> rw [h]
    · simp
    · obtain ⟨h1, h2, h3⟩ := ih rest
      have hp := Token.bytes_length_pos t
      have hq : t.payload.length ≤ t.bytes.length := by
        cases t <;> simp [Token.payload, Token.bytes, Token.header, Token.data] <;> omega
      refine ⟨by simp; omega, by simp; omega, ?_⟩
      simp only [List.length_cons]; rw [h3]; omega
    · have := List.length_pos_of_ne_nil ht
      exact ⟨this, by simp, by simp⟩
    · have : b ≠ [] := by rintro rfl; rcases hb with ⟨lb, rest, h, _⟩ | ⟨lb, rest, h, _⟩ <;> simp at h
      have := List.length_pos_of_ne_nil this
      exact ⟨this, by simp, by simp⟩

/-- C107: for every script the loop of `DecodeParts` makes at most one iteration per byte, exactly one per part it returns (and one more if it fails), and its parts have together no more bytes than
the script, whatever lengths the script announces and however decoding ends. -/
theorem C107_decode (b : Bytes) :
    (decodeLoopW (b.length + 1) b).1 ≤ b.length ∧
    ((DecodePartsFull b).1.map List.length).sum ≤ b.length ∧
    (decodeLoopW (b.length + 1) b).1 = (DecodePartsFull b).1.length + (if (DecodePartsFull b).2 = .done then 0 else 1) := by
  rw [← C107_decode_model]; exact decodeLoopW_count _ _

/-- A script announcing a push of 4 GiB takes one iteration; one of three op codes three. -/
example : (decodeLoopW 6 [0x4e, 255, 255, 255, 255]).1 = 1 ∧ (DecodePartsFull [0x4e, 250, 255, 255, 255]).2 = .notEnoughData ∧ (decodeLoopW 4 [0x76, 0xa9, 0x87]).1 = 3 := by decide +kernel

/-! ## Merkle branches -/

theorem pairUpW_eq (H : HashFns) (l : List Bytes) : pairUpW H l = ((l.length + 1) / 2, pairUp H l) := by
  fun_induction pairUp H l with
  | case1 => rfl
  | case2 x => rw [pairUpW]; simp [-Nat.reduceDiv]; rfl
  | case3 x y rest ih => simp only [pairUpW, ih, List.length_cons]; congr 1; omega

/-- The number of hashes on the level `k + 1` of a Merkle tree with `n` leaves: one for each `2 ^ (k + 1)` leaves that it covers, the last perhaps incomplete. -/
def levelSize (n k : Nat) : Nat := (n + (2 ^ (k + 1) - 1)) / 2 ^ (k + 1)

theorem levelSize_succ (n k : Nat) : levelSize n (k + 1) = levelSize ((n + 1) / 2) k := by
  unfold levelSize
  have h1 : 0 < 2 ^ (k + 1) := Nat.pow_pos (by decide)
  rw [show (2 : Nat) ^ (k + 1 + 1) = 2 * 2 ^ (k + 1) by ring, ← Nat.div_div_eq_div_mul]
  congr 1; omega

theorem walkBranchW_exact (H : HashFns) (fuel : Nat) : ∀ l : List Bytes, l.length < fuel →
    (walkBranchW H fuel l).1.2 = ((List.range (Nat.clog 2 l.length)).map (levelSize l.length)).sum := by
  induction fuel with
  | zero => intro l h; omega
  | succ n ih =>
    intro l h
    rcases l with _ | ⟨x, _ | ⟨y, r⟩⟩
    · simp [walkBranchW]
    · simp [walkBranchW]
    · have hl := pairUp_length H (x :: y :: r)
      simp only [List.length_cons] at hl h
      have i := ih (pairUp H (x :: y :: r)) (by omega)
      rw [walkBranchW, pairUpW_eq]
      have hc : Nat.clog 2 (r.length + 1 + 1) = Nat.clog 2 ((r.length + 1 + 1 + 1) / 2) + 1 := by
        rw [Nat.clog_of_two_le (by omega) (by omega)]; simp
      simp only [List.length_cons]
      rw [i, hl, hc, List.range_succ_eq_map, List.map_cons, List.sum_cons, List.map_map, Nat.add_comm]
      congr 1
      congr 1
      exact List.map_congr_left fun k _ => (levelSize_succ _ k).symm

theorem walkBranchW_eq (H : HashFns) (fuel : Nat) : ∀ (g : Nat) (l : List Bytes), l.length < fuel → l.length ≤ g →
    (walkBranchW H fuel l).2 = walkBranch H g l ∧ (walkBranchW H fuel l).1.1 = Nat.clog 2 l.length + 1 ∧ (walkBranchW H fuel l).1.2 + 1 ≤ max l.length 1 + Nat.clog 2 l.length := by
  induction fuel with
  | zero => intro g l h; omega
  | succ n ih =>
    intro g l h hg
    rcases l with _ | ⟨x, _ | ⟨y, r⟩⟩
    · rw [walkBranchW]; cases g <;> simp [walkBranch]
    · rw [walkBranchW]; cases g <;> simp [walkBranch]
    · obtain ⟨g, rfl⟩ : ∃ g', g = g' + 1 := ⟨g - 1, by simp at hg; omega⟩
      have hl := pairUp_length H (x :: y :: r)
      simp only [List.length_cons] at hl h hg
      obtain ⟨i1, i2, i3⟩ := ih g (pairUp H (x :: y :: r)) (by omega) (by omega)
      rw [walkBranchW, walkBranch, pairUpW_eq]
      have hc : Nat.clog 2 (r.length + 1 + 1) = Nat.clog 2 ((r.length + 1 + 1 + 1) / 2) + 1 := by
        rw [Nat.clog_of_two_le (by omega) (by omega)]; simp
      simp only [List.length_cons]
      rw [i1, i2, hl, hc]
      rw [hl] at i3
      refine ⟨rfl, rfl, ?_⟩
      have h1 : max ((r.length + 1 + 1 + 1) / 2) 1 = (r.length + 1 + 1 + 1) / 2 := by omega
      rw [h1] at i3
      have h2 : max (r.length + 1 + 1) 1 = r.length + 1 + 1 := by omega
      rw [h2]; omega

/-- C107 (model): without the counters, the counted function is `GetMerkleBranches`; its recursion depth bound is never met. -/
theorem C107_merkle_model (H : HashFns) (template : List Bytes) : (GetMerkleBranchesW H template).2 = GetMerkleBranches H template :=
  (walkBranchW_eq H _ _ _ (Nat.lt_succ_self _) (Nat.le_refl _)).1

/-- C107: for a list of `n` hashes, whatever they are, the branches take `⌈log2 n⌉ + 1` calls of the recursive walk and one double hash for each node above the leaves (the root too): `⌈n/2⌉ + ⌈n/4⌉ + ... + 1`,
which is at most `n - 1 + ⌈log2 n⌉`. -/
theorem C107_merkle (H : HashFns) (template : List Bytes) :
    (GetMerkleBranchesW H template).1.1 = Nat.clog 2 template.length + 1 ∧
    (GetMerkleBranchesW H template).1.2 = ((List.range (Nat.clog 2 template.length)).map (levelSize template.length)).sum ∧
    (GetMerkleBranchesW H template).1.2 ≤ template.length - 1 + Nat.clog 2 template.length := by
  have hl : (getHashes template).length = template.length := by simp [getHashes]
  obtain ⟨_, h1, h2⟩ := walkBranchW_eq H _ _ (getHashes template) (Nat.lt_succ_self (getHashes template).length) (Nat.le_refl _)
  have h3 := walkBranchW_exact H _ (getHashes template) (Nat.lt_succ_self (getHashes template).length)
  unfold GetMerkleBranchesW
  dsimp only
  rw [hl] at h1 h2 h3 ⊢
  refine ⟨h1, h3, ?_⟩
  rw [Nat.succ_eq_add_one] at h2
  omega

/-- Five hashes: four calls of the walk and six double hashes. -/
example : (GetMerkleBranchesW toyH [[], [], [], [], []]).1 = (4, 6) := by decide +kernel

end Verif.Props
