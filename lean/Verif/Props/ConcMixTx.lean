import Verif.Props.ConcMix
import Verif.Props.ConcBuild
import Verif.Props.SignAuto
import Verif.Props.Tx
/-!
# C122: calls on a transaction while others add to it (the calls); C123: signing through the transaction while others add to it
-/
namespace Verif.Props
open Verif Verif.Spec Verif.Mix
open Verif.Build (Pool Loc Access)
open Verif.Obj (RefSlice)

/-! ## The lists are a transaction's at every moment -/

theorem adds_get {es : List Elem} {t f : Nat} {x : Elem} (h : (adds es)[t]? = some (f, x)) : x ∈ es ∧ ((f = 0 ∧ ∃ i, x = .inl i) ∨ (f = 1 ∧ ∃ o, x = .inr o)) := by
  unfold adds at h
  rw [List.getElem?_map, Option.map_eq_some_iff] at h
  obtain ⟨e, he, h⟩ := h
  have hm := List.mem_of_getElem? he
  cases e with
  | inl i => simp only [Prod.mk.injEq] at h; obtain ⟨rfl, rfl⟩ := h; exact ⟨hm, .inl ⟨rfl, i, rfl⟩⟩
  | inr o => simp only [Prod.mk.injEq] at h; obtain ⟨rfl, rfl⟩ := h; exact ⟨hm, .inr ⟨rfl, o, rfl⟩⟩

theorem outcome_typed {tx : Transaction} {es : List Elem} {f : Nat} {l : List Elem} (h : ∃ ts, Outcome (adds es) f (txVal tx f) ts l) :
    (f = 0 ∧ (∃ is : List Input, l = is.map .inl ∧ tx.Inputs <+: is ∧ ∀ i ∈ is, i ∈ tx.Inputs ∨ .inl i ∈ es)) ∨ (f = 1 ∧ ∃ os : List Output, l = os.map .inr ∧ tx.Outputs <+: os) ∨ (2 ≤ f ∧ l = []) := by
  obtain ⟨ts, -, xs, ha, rfl⟩ := h
  have hx : ∀ x ∈ xs, x ∈ es ∧ ((f = 0 ∧ ∃ i, x = .inl i) ∨ (f = 1 ∧ ∃ o, x = .inr o)) := by
    unfold AddedBy at ha
    induction ha with
    | nil => intro x hx; cases hx
    | cons h _ ih =>
      intro x hx
      rcases List.mem_cons.1 hx with rfl | hx
      · exact adds_get h
      · exact ih x hx
  match f with
  | 0 =>
    left
    refine ⟨rfl, ?_⟩
    have : ∃ is : List Input, xs = is.map .inl ∧ ∀ i ∈ is, .inl i ∈ es := by
      clear ha
      induction xs with
      | nil => exact ⟨[], rfl, by simp⟩
      | cons x xs ih =>
        obtain ⟨is, e, hi⟩ := ih (fun y hy => hx y (List.mem_cons_of_mem _ hy))
        obtain ⟨h1, h2⟩ := hx x (List.mem_cons_self ..)
        rcases h2 with ⟨-, i, rfl⟩ | ⟨h, -⟩
        · exact ⟨i :: is, by simp [e], by intro j hj; rcases List.mem_cons.1 hj with rfl | hj; exacts [h1, hi j hj]⟩
        · cases h
    obtain ⟨is, rfl, hi⟩ := this
    exact ⟨tx.Inputs ++ is, by simp [txVal], List.prefix_append _ _, fun i h => (List.mem_append.1 h).imp id (hi i)⟩
  | 1 =>
    right; left
    refine ⟨rfl, ?_⟩
    have : ∃ is : List Output, xs = is.map .inr := by
      clear ha
      induction xs with
      | nil => exact ⟨[], rfl⟩
      | cons x xs ih =>
        obtain ⟨is, e⟩ := ih (fun y hy => hx y (List.mem_cons_of_mem _ hy))
        rcases (hx x (List.mem_cons_self ..)).2 with ⟨h, -⟩ | ⟨-, i, rfl⟩
        · cases h
        · exact ⟨i :: is, by simp [e]⟩
    obtain ⟨is, rfl⟩ := this
    exact ⟨tx.Outputs ++ is, by simp [txVal], List.prefix_append _ _⟩
  | f + 2 =>
    right; right
    refine ⟨by omega, ?_⟩
    have : xs = [] := by
      cases xs with
      | nil => rfl
      | cons x xs =>
        rcases (hx x (List.mem_cons_self ..)).2 with ⟨h, -⟩ | ⟨h, -⟩ <;> omega
    rw [this]; rfl

section
variable (H : HashFns) (g : Nat → Nat) {tx : Transaction} {pool : Nat → Pool Elem} (hp : HoldsTx pool tx) (es : List Elem) (calls : List (Prog Elem Got))
include hp

theorem tx_outcome (sch : List Nat) (f : Nat) : ∃ ts, Outcome (adds es) f (txVal tx f) ts ((Mix.run g (Mix.start pool (adds es) calls) sch).val f) := by
  have := C122_always g pool (fun f => (hp f).1) (adds es) calls sch f
  rwa [(hp f).2] at this

/-- C122, any schedule: the lists are at every moment those of a transaction: the one at the start, in place, with some inputs and outputs added. -/
theorem C122_now (sch : List Nat) : (Mix.run g (Mix.start pool (adds es) calls) sch).val = txVal (now tx (Mix.run g (Mix.start pool (adds es) calls) sch)) ∧
    tx.Inputs <+: (now tx (Mix.run g (Mix.start pool (adds es) calls) sch)).Inputs ∧ tx.Outputs <+: (now tx (Mix.run g (Mix.start pool (adds es) calls) sch)).Outputs := by
  have h := tx_outcome g hp es calls sch
  generalize Mix.run g (Mix.start pool (adds es) calls) sch = s at *
  have h0 := outcome_typed (h 0)
  have h1 := outcome_typed (h 1)
  simp only [true_and, false_and, or_false, false_or, show ¬ (2 ≤ 0) by omega, show ¬ (2 ≤ 1) by omega, show ¬ (0 = 1) by omega, show ¬ (1 = 0) by omega] at h0 h1
  obtain ⟨is, e0, p0, -⟩ := h0
  obtain ⟨os, e1, p1⟩ := h1
  refine ⟨?_, ?_, ?_⟩
  · funext f
    match f with
    | 0 => show s.val 0 = (ins (s.val 0)).map .inl; rw [e0, ins_map]
    | 1 => show s.val 1 = (outs (s.val 1)).map .inr; rw [e1, outs_map]
    | f + 2 =>
      rcases outcome_typed (h (f + 2)) with ⟨h, -⟩ | ⟨h, -⟩ | ⟨-, h⟩
      · omega
      · omega
      · exact h
  · show tx.Inputs <+: ins (s.val 0); rw [e0, ins_map]; exact p0
  · show tx.Outputs <+: outs (s.val 1); rw [e1, outs_map]; exact p1

end

/-! ## What the calls return when additions do not overlap -/

section
variable {α β : Type} {N : Nat} {v : Nat → Nat → List α}

/-- What a list showed at a position, it shows there at any other moment at which it is long enough. -/
theorem stable (gr : ∀ f n m, n ≤ m → v n f <+: v m f) {j j' f i : Nat} {x : α} (h : (v j f)[i]? = some x) (hi : j ≤ j' ∨ i < (v j' f).length) : (v j' f)[i]? = some x := by
  have hl := (List.getElem?_eq_some_iff.1 h).1
  rcases Nat.le_total j j' with c | c
  · obtain ⟨t, e⟩ := gr f j j' c
    rw [← e, List.getElem?_append_left hl]; exact h
  · rcases hi with hi | hi
    · rw [Nat.le_antisymm c hi]; exact h
    · obtain ⟨t, e⟩ := gr f j' j c
      rw [← e, List.getElem?_append_left hi] at h; exact h

/-- Looks at moments before `N` find what `v` says. -/
def FindsAt (N : Nat) (v : Nat → Nat → List α) (j f : Nat) (l : List α) : Prop := j < N ∧ l = v j f

theorem count_finds {n f : Nat} {k : Nat → Prog α β} {r : Res β} (h : Finds (FindsAt N v) n (.count f k) r) : ∃ j, n ≤ j ∧ j < N ∧ Finds (FindsAt N v) (j + 1) (k (v j f).length) r := by
  cases h with
  | count hj hP hk => obtain ⟨hN, rfl⟩ := hP; exact ⟨_, hj, hN, hk⟩

theorem range_finds {n f : Nat} {k : List α → Prog α β} {r : Res β} (h : Finds (FindsAt N v) n (.range f k) r) : ∃ j, n ≤ j ∧ j < N ∧ Finds (FindsAt N v) (j + 1) (k (v j f)) r := by
  cases h with
  | range hj hP hk => obtain ⟨hN, rfl⟩ := hP; exact ⟨_, hj, hN, hk⟩

theorem elem_finds {n f i : Nat} {k : α → Prog α β} {r : β} (h : Finds (FindsAt N v) n (.elem f i k) (.ok r)) : ∃ j x, n ≤ j ∧ j < N ∧ (v j f)[i]? = some x ∧ Finds (FindsAt N v) (j + 1) (k x) (.ok r) := by
  cases h with
  | elem hj hP hx hk => obtain ⟨hN, rfl⟩ := hP; exact ⟨_, _, hj, hN, hx, hk⟩

theorem ret_finds {n : Nat} {r r' : β} {P : Nat → Nat → List α → Prop} (h : Finds P n (.ret r : Prog α β) (.ok r')) : r' = r := by cases h; rfl

theorem panic_finds {n : Nat} {r : β} {P : Nat → Nat → List α → Prop} (h : Finds P n (.panic : Prog α β) (.ok r)) : False := by cases h

end

section
variable {N : Nat} {v : Nat → Nat → List Elem} {r : Got}

theorem coinbase_finds (gr : ∀ f n m, n ≤ m → v n f <+: v m f) {n : Nat} (h : Finds (FindsAt N v) n isCoinbase (.ok r)) : ∃ j, j < N ∧ alone (v j) isCoinbase = .ok r := by
  unfold isCoinbase at h ⊢
  obtain ⟨j, hj, hN, h⟩ := count_finds h
  refine ⟨j, hN, ?_⟩
  rw [alone_count]
  split_ifs at h ⊢ with c
  · rw [ret_finds h]; rfl
  have c1 : 0 < (v j 0).length := by omega
  obtain ⟨j1, x1, h1, -, e1, h⟩ := elem_finds h
  rw [alone_elem (stable gr e1 (.inr c1))]
  cases x1 with
  | inr o => exact (panic_finds h).elim
  | inl i1 =>
    dsimp only at h ⊢
    split_ifs at h ⊢ with c2
    · rw [ret_finds h]; rfl
    obtain ⟨j2, x2, h2, -, e2, h⟩ := elem_finds h
    rw [alone_elem (stable gr e2 (.inr c1))]
    cases x2 with
    | inr o => exact (panic_finds h).elim
    | inl i2 =>
      dsimp only at h ⊢
      split_ifs at h ⊢ with c3
      · rw [ret_finds h]; rfl
      obtain ⟨j3, x3, h3, -, e3, h⟩ := elem_finds h
      rw [alone_elem (stable gr e3 (.inr c1))]
      cases x3 with
      | inr o => exact (panic_finds h).elim
      | inl i3 => dsimp only at h ⊢; rw [ret_finds h]; rfl

/-- The part of `GetInputSignatureHash` about the outputs. -/
def outp (H : HashFns) (i : UInt32) (flag : UInt8) (k : Bytes → Prog Elem Got) : Prog Elem Got :=
  if flag &&& 31 ≠ sighash.Single ∧ flag &&& 31 ≠ sighash.None then outputsHash H (-1) k
  else if flag &&& 31 = sighash.Single then
    .count 1 fun m => if i < UInt32.ofNat m then outputsHash H (Transaction.int32OfUint32 i) k else k (List.replicate 32 0)
  else k (List.replicate 32 0)

/-- The part about the inputs. -/
def inpp (H : HashFns) (flag : UInt8) (k : Bytes → Bytes → Prog Elem Got) : Prog Elem Got :=
  let sequence (k : Bytes → Prog Elem Got) : Prog Elem Got :=
    if flag &&& sighash.AnyOneCanPay = 0 ∧ flag &&& 31 ≠ sighash.Single ∧ flag &&& 31 ≠ sighash.None then
      .range 0 fun is => k (Sha256d H ((ins is).flatMap fun i => putUint32 i.SequenceNumber))
    else k (List.replicate 32 0)
  if flag &&& sighash.AnyOneCanPay = 0 then
    .range 0 fun is => sequence (k (Sha256d H ((ins is).flatMap fun i => ReverseBytes (hexDecodeIgnore i.PreviousTxID) ++ putUint32 i.PreviousTxOutIndex)))
  else sequence (k (List.replicate 32 0))

theorem sigHash_def (H : HashFns) (version locktime : UInt32) (i : UInt32) (flag : UInt8) (k : Got → Prog Elem Got) :
    sigHash H version locktime i flag k = .elem 0 i.toNat fun e => match e with
      | .inr _ => .panic
      | .inl inp =>
        if inp.PreviousTxID = [] then k (.error "'PreviousTxID' not supplied")
        else match inp.PreviousTxScript with
        | none => k (.error "'PreviousTxScript' not supplied")
        | some prevScript => inpp H flag fun hp hs => outp H i flag fun ho => k (.bytes (digestRead H version locktime flag inp prevScript hp hs ho)) := rfl

theorem int32_low {i : UInt32} (hi : i.toNat < 2 ^ 31) : Transaction.int32OfUint32 i = (i.toNat : Int) := by
  unfold Transaction.int32OfUint32
  omega

theorem outp_finds (gr : ∀ f n m, n ≤ m → v n f <+: v m f) (H : HashFns) {i : UInt32} (hi : i.toNat < 2 ^ 31) (flag : UInt8) {k : Bytes → Prog Elem Got} {n : Nat} (h : Finds (FindsAt N v) n (outp H i flag k) (.ok r)) :
    ∃ ho n', Finds (FindsAt N v) n' (k ho) (.ok r) ∧ ((flag &&& 31 = sighash.None ∧ ∀ w k', alone w (outp H i flag k') = alone w (k' ho)) ∨
      (flag &&& 31 ≠ sighash.None ∧ ∃ j, n ≤ j ∧ j < N ∧ ∀ w k', w 1 = v j 1 → alone w (outp H i flag k') = alone w (k' ho))) := by
  unfold outp at h ⊢
  by_cases c1 : flag &&& 31 ≠ sighash.Single ∧ flag &&& 31 ≠ sighash.None
  · rw [if_pos c1, outputsHash, if_pos rfl] at h
    obtain ⟨j, hj, hN, h⟩ := range_finds h
    refine ⟨_, _, h, .inr ⟨c1.2, j, hj, hN, fun w k' hw => ?_⟩⟩
    rw [if_pos c1, outputsHash, if_pos rfl, alone_range, hw]
  rw [if_neg c1] at h
  by_cases c2 : flag &&& 31 = sighash.Single
  · rw [if_pos c2] at h
    have c3 : flag &&& 31 ≠ sighash.None := by rw [c2]; decide
    obtain ⟨j, hj, hN, h⟩ := count_finds h
    by_cases c4 : i < UInt32.ofNat (v j 1).length
    · rw [if_pos c4, outputsHash, int32_low hi, if_neg (by omega), if_neg (by omega), Int.toNat_natCast] at h
      have c5 : i.toNat < (v j 1).length := by
        have := UInt32.lt_iff_toNat_lt.1 c4
        rw [UInt32.toNat_ofNat'] at this
        exact Nat.lt_of_lt_of_le this (Nat.mod_le _ _)
      obtain ⟨j1, x, h1, -, e, h⟩ := elem_finds h
      cases x with
      | inl i => exact (panic_finds h).elim
      | inr o =>
        refine ⟨_, _, h, .inr ⟨c3, j, hj, hN, fun w k' hw => ?_⟩⟩
        have e' := stable gr e (.inr c5)
        rw [← hw] at e'
        rw [if_neg c1, if_pos c2, alone_count, hw, if_pos c4, outputsHash, int32_low hi, if_neg (by omega), if_neg (by omega), Int.toNat_natCast, alone_elem e']
    · rw [if_neg c4] at h
      refine ⟨_, _, h, .inr ⟨c3, j, hj, hN, fun w k' hw => ?_⟩⟩
      rw [if_neg c1, if_pos c2, alone_count, hw, if_neg c4]
  · rw [if_neg c2] at h
    have c3 : flag &&& 31 = sighash.None := by
      by_contra c3; exact c1 ⟨c2, c3⟩
    exact ⟨_, _, h, .inl ⟨c3, fun w k' => by rw [if_neg c1, if_neg c2]⟩⟩

theorem inpp_finds (H : HashFns) (flag : UInt8) {k : Bytes → Bytes → Prog Elem Got} {n : Nat} (h : Finds (FindsAt N v) n (inpp H flag k) (.ok r)) :
    ∃ hp hs n', n ≤ n' ∧ Finds (FindsAt N v) n' (k hp hs) (.ok r) ∧
      ((flag &&& sighash.AnyOneCanPay ≠ 0 ∧ ∀ w k', alone w (inpp H flag k') = alone w (k' hp hs)) ∨
       (flag &&& sighash.AnyOneCanPay = 0 ∧ (flag &&& 31 = sighash.Single ∨ flag &&& 31 = sighash.None) ∧ ∃ j, n ≤ j ∧ j < N ∧ j < n' ∧ ∀ w k', w 0 = v j 0 → alone w (inpp H flag k') = alone w (k' hp hs)) ∨
       (flag &&& 31 ≠ sighash.Single ∧ flag &&& 31 ≠ sighash.None ∧ flag &&& sighash.AnyOneCanPay = 0 ∧ ∃ j j', n ≤ j ∧ j < j' ∧ j' < N ∧ j' < n' ∧ ∀ w k', w 0 = v j 0 → w 0 = v j' 0 → alone w (inpp H flag k') = alone w (k' hp hs))) := by
  unfold inpp at h ⊢
  dsimp only at h ⊢
  by_cases c1 : flag &&& sighash.AnyOneCanPay = 0
  · rw [if_pos c1] at h
    obtain ⟨j, hj, hN, h⟩ := range_finds h
    by_cases c2 : flag &&& sighash.AnyOneCanPay = 0 ∧ flag &&& 31 ≠ sighash.Single ∧ flag &&& 31 ≠ sighash.None
    · rw [if_pos c2] at h
      obtain ⟨j', hj', hN', h⟩ := range_finds h
      refine ⟨_, _, _, by omega, h, .inr (.inr ⟨c2.2.1, c2.2.2, c1, j, j', hj, by omega, hN', by omega, fun w k' e1 e2 => ?_⟩)⟩
      rw [if_pos c1, alone_range, if_pos c2, alone_range, ← e1, ← e2]
    · rw [if_neg c2] at h
      refine ⟨_, _, _, by omega, h, .inr (.inl ⟨c1, ?_, j, hj, hN, by omega, fun w k' e1 => ?_⟩)⟩
      · by_contra c; rw [not_or] at c; exact c2 ⟨c1, c⟩
      · rw [if_pos c1, alone_range, if_neg c2, ← e1]
  · have c2 : ¬ (flag &&& sighash.AnyOneCanPay = 0 ∧ flag &&& 31 ≠ sighash.Single ∧ flag &&& 31 ≠ sighash.None) := fun h => c1 h.1
    rw [if_neg c1, if_neg c2] at h
    refine ⟨_, _, _, Nat.le_refl _, h, .inl ⟨c1, fun w k' => ?_⟩⟩
    rw [if_neg c1, if_neg c2]

/-- `GetInputSignatureHash` sees one moment: with ANYONECANPAY, with NONE, when the inputs do not change, and with SINGLE when the outputs do not change. -/
theorem digest_finds (gr : ∀ f n m, n ≤ m → v n f <+: v m f) (H : HashFns) (version locktime : UInt32) {i : UInt32} (hi : i.toNat < 2 ^ 31) (flag : UInt8)
    (hc : flag &&& sighash.AnyOneCanPay ≠ 0 ∨ flag &&& 31 = sighash.None ∨ (∀ j, v j 0 = v 0 0) ∨ (flag &&& 31 = sighash.Single ∧ ∀ j, v j 1 = v 0 1)) {n : Nat}
    (h : Finds (FindsAt N v) n (sigHash H version locktime i flag .ret) (.ok r)) : ∃ j, j < N ∧ alone (v j) (sigHash H version locktime i flag .ret) = .ok r := by
  rw [sigHash_def] at h ⊢
  obtain ⟨j0, x, -, hN0, e0, h⟩ := elem_finds h
  have ex : ∀ j, j0 ≤ j → (v j 0)[i.toNat]? = some x := fun j hj => stable gr e0 (.inl hj)
  cases x with
  | inr o => exact (panic_finds h).elim
  | inl inp =>
    dsimp only at h ⊢
    by_cases c1 : inp.PreviousTxID = []
    · rw [if_pos c1] at h
      refine ⟨j0, hN0, ?_⟩
      rw [alone_elem (ex j0 (Nat.le_refl _))]
      dsimp only
      rw [if_pos c1, ret_finds h]; rfl
    rw [if_neg c1] at h
    rcases c2 : inp.PreviousTxScript with _ | ps
    · rw [c2] at h
      refine ⟨j0, hN0, ?_⟩
      rw [alone_elem (ex j0 (Nat.le_refl _))]
      dsimp only
      rw [if_neg c1, c2, ret_finds h]; rfl
    rw [c2] at h
    obtain ⟨hp, hs, n1, hn1, h, hI⟩ := inpp_finds H flag h
    obtain ⟨ho, n2, h, hO⟩ := outp_finds gr H hi flag h
    rw [ret_finds h]
    clear h
    have fin : ∀ j, j0 ≤ j → j < N → (∀ k', alone (v j) (inpp H flag k') = alone (v j) (k' hp hs)) → (∀ k', alone (v j) (outp H i flag k') = alone (v j) (k' ho)) →
        ∃ j, j < N ∧ alone (v j) (.elem 0 i.toNat fun e => match e with
          | .inr _ => .panic
          | .inl inp =>
            if inp.PreviousTxID = [] then .ret (.error "'PreviousTxID' not supplied")
            else match inp.PreviousTxScript with
            | none => .ret (.error "'PreviousTxScript' not supplied")
            | some prevScript => inpp H flag fun hp hs => outp H i flag fun ho => .ret (.bytes (digestRead H version locktime flag inp prevScript hp hs ho))) =
          .ok (.bytes (digestRead H version locktime flag inp ps hp hs ho)) := by
      intro j hj hN hA hB
      refine ⟨j, hN, ?_⟩
      rw [alone_elem (ex j hj)]
      dsimp only
      rw [if_neg c1, c2]
      dsimp only
      rw [hA, hB]; rfl
    rcases hI with ⟨d1, hI⟩ | ⟨d1, d2, j, hj, hN, hjn, hI⟩ | ⟨d5, d6, d1, j, j', hj, hjj, hN, hjn, hI⟩
    · rcases hO with ⟨-, hO⟩ | ⟨-, q, hq, hqN, hO⟩
      · exact fin j0 (Nat.le_refl _) hN0 (hI _) (hO _)
      · exact fin q (by omega) hqN (hI _) (fun k' => hO _ k' rfl)
    · rcases hO with ⟨-, hO⟩ | ⟨d3, q, hq, hqN, hO⟩
      · exact fin j (by omega) hN (fun k' => hI _ k' rfl) (hO _)
      · rcases hc with hc | hc | hc | ⟨-, hc⟩
        · exact absurd d1 hc
        · exact absurd hc d3
        · exact fin q (by omega) hqN (fun k' => hI _ k' (by rw [hc q, hc j])) (fun k' => hO _ k' rfl)
        · exact fin j (by omega) hN (fun k' => hI _ k' rfl) (fun k' => hO _ k' (by rw [hc j, hc q]))
    · -- prevouts and sequence numbers are looked at one after the other
      rcases hO with ⟨d3, -⟩ | ⟨-, q, hq, hqN, hO⟩
      · exact absurd d3 d6
      · rcases hc with hc | hc | hc | ⟨hc, -⟩
        · exact absurd d1 hc
        · exact absurd hc d6
        · exact fin q (by omega) hqN (fun k' => hI _ k' (by rw [hc q, hc j]) (by rw [hc q, hc j'])) (fun k' => hO _ k' rfl)
        · exact absurd hc d5

end

section
variable (H : HashFns) (g : Nat → Nat) {tx : Transaction} {pool : Nat → Pool Elem} (hp : HoldsTx pool tx) (es : List Elem) (calls : List (Prog Elem Got)) {sch : List Nat}
  (ho : NoOverlap g (Mix.start pool (adds es) calls) sch)
include hp ho

theorem tx_finds {i : Nat} {p : Prog Elem Got} (hc : calls[i]? = some p) {r : Got} (h : HasReturned (Mix.run g (Mix.start pool (adds es) calls) sch) i r) :
    Finds (FindsAt sch.length fun j => (Mix.run g (Mix.start pool (adds es) calls) (sch.take j)).val) 0 p (.ok r) :=
  Mix.Finds.imp (fun _ _ _ hl => ⟨(List.getElem?_eq_some_iff.1 hl.1).1, hl.2⟩) (C122_orderly g pool (fun f => (hp f).1) (adds es) calls sch ho i p hc r h)

theorem tx_grows (f n m : Nat) (h : n ≤ m) :
    (fun j => (Mix.run g (Mix.start pool (adds es) calls) (sch.take j)).val) n f <+: (fun j => (Mix.run g (Mix.start pool (adds es) calls) (sch.take j)).val) m f :=
  C122_grows g pool (fun f => (hp f).1) (adds es) calls sch ho f n m h

/-- C122: `InputCount`, `OutputCount` and `GetTotalOutputSatoshis` return what they return on the transaction as it is at one moment of the call. -/
theorem C122_counts {i : Nat} {r : Got} (h : HasReturned (Mix.run g (Mix.start pool (adds es) calls) sch) i r) :
    (calls[i]? = some (OnTx.inputCount.prog H tx) → ∃ n, n < sch.length ∧ r = .number (now tx (Mix.run g (Mix.start pool (adds es) calls) (sch.take n))).Inputs.length) ∧
    (calls[i]? = some (OnTx.outputCount.prog H tx) → ∃ n, n < sch.length ∧ r = .number (now tx (Mix.run g (Mix.start pool (adds es) calls) (sch.take n))).Outputs.length) ∧
    (calls[i]? = some (OnTx.total.prog H tx) → ∃ n, n < sch.length ∧ r = .number (now tx (Mix.run g (Mix.start pool (adds es) calls) (sch.take n))).GetTotalOutputSatoshis.toNat) := by
  have hv := fun n => (C122_now g hp es calls (sch.take n)).1
  refine ⟨fun hc => ?_, fun hc => ?_, fun hc => ?_⟩
  · have k := tx_finds g hp es calls ho hc h
    unfold OnTx.prog Mix.inputCount at k
    obtain ⟨j, -, hN, k⟩ := count_finds k
    refine ⟨j, hN, ?_⟩
    rw [ret_finds k, hv j]; simp [txVal]
  · have k := tx_finds g hp es calls ho hc h
    unfold OnTx.prog Mix.outputCount at k
    obtain ⟨j, -, hN, k⟩ := count_finds k
    refine ⟨j, hN, ?_⟩
    rw [ret_finds k, hv j]; simp [txVal]
  · have k := tx_finds g hp es calls ho hc h
    unfold OnTx.prog Mix.totalSatoshis at k
    obtain ⟨j, -, hN, k⟩ := range_finds k
    refine ⟨j, hN, ?_⟩
    rw [ret_finds k]; rfl

/-- C122: and so does `IsCoinbase`, although it looks up to four times. -/
theorem C122_coinbase {i : Nat} {r : Got} (hc : calls[i]? = some (OnTx.isCoinbase.prog H tx)) (h : HasReturned (Mix.run g (Mix.start pool (adds es) calls) sch) i r) :
    ∃ n, n < sch.length ∧ r = .bool (now tx (Mix.run g (Mix.start pool (adds es) calls) (sch.take n))).IsCoinbase := by
  obtain ⟨j, hN, k⟩ := coinbase_finds (tx_grows g hp es calls ho) (tx_finds g hp es calls ho hc h)
  refine ⟨j, hN, ?_⟩
  rw [(C122_now g hp es calls (sch.take j)).1, C122_coinbase_alone] at k
  injection k with k
  exact k.symm

omit ho in
/-- Which lists do not change. -/
theorem one_moment {flag : UInt8} (hf : OneMoment flag es) :
    flag &&& sighash.AnyOneCanPay ≠ 0 ∨ flag &&& 31 = sighash.None ∨ (∀ j, (Mix.run g (Mix.start pool (adds es) calls) (sch.take j)).val 0 = (Mix.run g (Mix.start pool (adds es) calls) (sch.take 0)).val 0) ∨
      (flag &&& 31 = sighash.Single ∧ ∀ j, (Mix.run g (Mix.start pool (adds es) calls) (sch.take j)).val 1 = (Mix.run g (Mix.start pool (adds es) calls) (sch.take 0)).val 1) := by
  have still : ∀ f, (∀ (t : Nat) (x : Elem), (adds es)[t]? ≠ some (f, x)) → ∀ n, (Mix.run g (Mix.start pool (adds es) calls) (sch.take n)).val f = txVal tx f := by
    intro f hn n
    obtain ⟨ts, -, xs, ha, e⟩ := tx_outcome g hp es calls (sch.take n) f
    rw [e]
    cases ha with
    | nil => simp
    | cons h _ => exact absurd h (hn _ _)
  rcases hf with hf | hf | hf | ⟨hf, hg⟩
  · exact .inl hf
  · exact .inr (.inl hf)
  · have : ∀ (t : Nat) (x : Elem), (adds es)[t]? ≠ some (0, x) := by
      intro t x h
      obtain ⟨h1, ⟨-, i, rfl⟩ | ⟨h2, -⟩⟩ := adds_get h
      · obtain ⟨o, ho⟩ := hf _ h1; cases ho
      · cases h2
    exact .inr (.inr (.inl fun j => (still 0 this j).trans (still 0 this 0).symm))
  · have : ∀ (t : Nat) (x : Elem), (adds es)[t]? ≠ some (1, x) := by
      intro t x h
      obtain ⟨h1, ⟨h2, -⟩ | ⟨-, i, rfl⟩⟩ := adds_get h
      · cases h2
      · obtain ⟨o, ho⟩ := hg _ h1; cases ho
    exact .inr (.inr (.inr ⟨hf, fun j => (still 1 this j).trans (still 1 this 0).symm⟩))

/-- C122: `GetInputSignatureHash` returns the digest (or the error) of the transaction as it is at one moment, if the flag has ANYONECANPAY or NONE, or nobody adds inputs, or the flag has SINGLE and nobody adds outputs. -/
theorem C122_digest {i : Nat} {idx : UInt32} (hi : idx.toNat < 2 ^ 31) {flag : UInt8} {r : Got} (hc : calls[i]? = some ((OnTx.digest idx flag).prog H tx))
    (hf : OneMoment flag es)
    (h : HasReturned (Mix.run g (Mix.start pool (adds es) calls) sch) i r) :
    ∃ n, n < sch.length ∧ asGot ((now tx (Mix.run g (Mix.start pool (adds es) calls) (sch.take n))).GetInputSignatureHash H idx flag) = .ok r := by
  obtain ⟨j, hN, k⟩ := digest_finds (tx_grows g hp es calls ho) H tx.Version tx.Locktime hi flag (one_moment g hp es calls hf) (tx_finds g hp es calls ho hc h)
  refine ⟨j, hN, ?_⟩
  rw [(C122_now g hp es calls (sch.take j)).1] at k
  exact (C122_digest_alone H (now tx (Mix.run g (Mix.start pool (adds es) calls) (sch.take j))) idx flag).symm.trans k

/-- C122: `ToBytes` (and with it `ToString` and `GetTxID`) looks at four moments, one after the other: at the number of inputs, the inputs, the number of outputs, the outputs. If the numbers fit what it then goes through, it returns
the serialisation of the transaction with these inputs and outputs. -/
theorem C122_toBytes {i : Nat} {r : Got} (hc : calls[i]? = some (OnTx.toBytes.prog H tx)) (h : HasReturned (Mix.run g (Mix.start pool (adds es) calls) sch) i r) :
    ∃ n1 n2 n3 n4, n1 < n2 ∧ n2 < n3 ∧ n3 < n4 ∧ n4 < sch.length ∧
      let moment := fun n => now tx (Mix.run g (Mix.start pool (adds es) calls) (sch.take n))
      r = .bytes (putUint32 tx.Version ++ VarInt (UInt64.ofNat (moment n1).Inputs.length) ++ (moment n2).Inputs.flatMap (Input.ToBytes · false) ++
        VarInt (UInt64.ofNat (moment n3).Outputs.length) ++ (moment n4).Outputs.flatMap Output.ToBytes ++ putUint32 tx.Locktime) ∧
      ((moment n1).Inputs.length = (moment n2).Inputs.length → (moment n3).Outputs.length = (moment n4).Outputs.length →
        r = .bytes ({ tx with Inputs := (moment n2).Inputs, Outputs := (moment n4).Outputs } : Transaction).ToBytes) := by
  have hv := fun n => (C122_now g hp es calls (sch.take n)).1
  have k := tx_finds g hp es calls ho hc h
  unfold OnTx.prog Mix.toBytes Mix.toBytesHelper at k
  dsimp only at k
  obtain ⟨n1, -, -, k⟩ := count_finds k
  obtain ⟨n2, h2, -, k⟩ := range_finds k
  obtain ⟨n3, h3, -, k⟩ := count_finds k
  obtain ⟨n4, h4, hN, k⟩ := range_finds k
  have hr := ret_finds k
  have l1 : ((Mix.run g (Mix.start pool (adds es) calls) (sch.take n1)).val 0).length = (now tx (Mix.run g (Mix.start pool (adds es) calls) (sch.take n1))).Inputs.length := by
    conv_lhs => rw [hv n1]
    simp [txVal]
  have l3 : ((Mix.run g (Mix.start pool (adds es) calls) (sch.take n3)).val 1).length = (now tx (Mix.run g (Mix.start pool (adds es) calls) (sch.take n3))).Outputs.length := by
    conv_lhs => rw [hv n3]
    simp [txVal]
  rw [l1, l3] at hr
  have hh : ∀ (is : List Input) (k : Nat), Transaction.inputsHelper 0 none k is = is.flatMap (Input.ToBytes · false) := by
    intro is
    induction is with
    | nil => intro k; rfl
    | cons i is ih => intro k; simp [Transaction.inputsHelper, ih]
  refine ⟨n1, n2, n3, n4, h2, h3, h4, hN, ?_, ?_⟩
  · rw [hr]; unfold helperRead; rw [hh]; rfl
  · intro e1 e2
    rw [hr, e1, e2]; rfl

end

/-! ## Calls that do not panic -/

section
variable {α β : Type}

/-- No path through the call panics, if the lists are as `T` says, are at least as long as `lo` says, and do not become shorter. -/
def Safe (T : Nat → List α → Prop) : (Nat → Nat) → Prog α β → Prop
  | _, .ret _ => True
  | _, .panic => False
  | lo, .count f k => ∀ l, T f l → lo f ≤ l.length → Safe T (Function.update lo f l.length) (k l.length)
  | lo, .elem f i k => i < lo f ∧ ∀ l x, T f l → l[i]? = some x → Safe T lo (k x)
  | lo, .range f k => ∀ l, T f l → lo f ≤ l.length → Safe T (Function.update lo f l.length) (k l)
  | lo, .assign _ k => Safe T lo k

theorem safe_finds {T : Nat → List α → Prop} {N : Nat} {v : Nat → Nat → List α} (gr : ∀ f n m, n ≤ m → v n f <+: v m f) (hT : ∀ j f, T f (v j f)) {n : Nat} {p : Prog α β} {res : Res β}
    (h : Finds (FindsAt N v) n p res) : ∀ lo, (∀ f, lo f ≤ (v n f).length) → Safe T lo p → res ≠ .panic := by
  have up : ∀ {n m : Nat} {lo : Nat → Nat}, n ≤ m → (∀ f, lo f ≤ (v n f).length) → ∀ f, lo f ≤ (v m f).length := fun hnm hl f => Nat.le_trans (hl f) (gr f _ _ hnm).length_le
  have set : ∀ {m f : Nat} {lo : Nat → Nat}, (∀ f, lo f ≤ (v m f).length) → ∀ f', Function.update lo f (v m f).length f' ≤ (v (m + 1) f').length := by
    intro m f lo hl f'
    by_cases e : f' = f
    · subst e; rw [Function.update_self]; exact (gr _ _ _ (Nat.le_succ m)).length_le
    · rw [Function.update_of_ne e]; exact up (Nat.le_succ m) hl f'
  induction h with
  | ret => intro lo _ _ h; cases h
  | panic => intro lo _ h; exact h.elim
  | @count n j f l k r hj hP _ ih =>
    intro lo hl hs
    obtain ⟨-, rfl⟩ := hP
    exact ih _ (set (up hj hl)) (hs _ (hT j f) (up hj hl f))
  | @elem n j f i l x k r hj hP hx _ ih =>
    intro lo hl hs
    obtain ⟨-, rfl⟩ := hP
    exact ih _ (up (by omega) hl) (hs.2 _ x (hT j f) hx)
  | @beyond n j f i l k hj hP hlen =>
    intro lo hl hs
    obtain ⟨-, rfl⟩ := hP
    have := up hj hl f
    have := hs.1
    omega
  | @range n j f l k r hj hP _ ih =>
    intro lo hl hs
    obtain ⟨-, rfl⟩ := hP
    exact ih _ (set (up hj hl)) (hs _ (hT j f) (up hj hl f))
  | assign _ ih => intro lo hl hs; exact ih lo hl hs

end

section
variable {T : Nat → List Elem → Prop} (h0 : ∀ l, T 0 l → ∀ e ∈ l, ∃ i, e = .inl i) (h1 : ∀ l, T 1 l → ∀ e ∈ l, ∃ o, e = .inr o)
include h0 h1

omit h0 in
theorem safe_outp (H : HashFns) {i : UInt32} (hi : i.toNat < 2 ^ 31) (flag : UInt8) (k : Bytes → Prog Elem Got) (lo : Nat → Nat) (hk : ∀ h lo', (∀ f, lo f ≤ lo' f) → Safe T lo' (k h)) : Safe T lo (outp H i flag k) := by
  have up : ∀ {lo : Nat → Nat} {f n : Nat}, lo f ≤ n → ∀ f', lo f' ≤ Function.update lo f n f' := by
    intro lo f n h f'
    by_cases e : f' = f
    · subst e; rw [Function.update_self]; exact h
    · rw [Function.update_of_ne e]
  unfold outp
  split_ifs with c1 c2
  · unfold outputsHash
    rw [if_pos rfl]
    intro l _ hl
    exact hk _ _ (up hl)
  · intro l _ hl
    dsimp only
    split_ifs with c3
    · unfold outputsHash
      rw [int32_low hi, if_neg (by omega), if_neg (by omega), Int.toNat_natCast]
      refine ⟨?_, fun l' x hl' hx => ?_⟩
      · rw [Function.update_self]
        have := UInt32.lt_iff_toNat_lt.1 c3
        rw [UInt32.toNat_ofNat'] at this
        exact Nat.lt_of_lt_of_le this (Nat.mod_le _ _)
      · obtain ⟨o, rfl⟩ := h1 _ hl' _ (List.mem_of_getElem? hx)
        exact hk _ _ (up hl)
    · exact hk _ _ (up hl)
  · exact hk _ _ fun _ => Nat.le_refl _

theorem safe_sigHash (H : HashFns) (version locktime : UInt32) {i : UInt32} (hi : i.toNat < 2 ^ 31) (flag : UInt8) (k : Got → Prog Elem Got) (lo : Nat → Nat) (hlo : i.toNat < lo 0)
    (hk : ∀ r lo', (∀ f, lo f ≤ lo' f) → Safe T lo' (k r)) : Safe T lo (sigHash H version locktime i flag k) := by
  have up : ∀ {lo : Nat → Nat} {f n : Nat}, lo f ≤ n → ∀ f', lo f' ≤ Function.update lo f n f' := by
    intro lo f n h f'
    by_cases e : f' = f
    · subst e; rw [Function.update_self]; exact h
    · rw [Function.update_of_ne e]
  rw [sigHash_def]
  refine ⟨hlo, fun l x hl hx => ?_⟩
  obtain ⟨inp, rfl⟩ := h0 _ hl _ (List.mem_of_getElem? hx)
  dsimp only
  by_cases c1 : inp.PreviousTxID = []
  · rw [if_pos c1]; exact hk _ _ fun _ => Nat.le_refl _
  rw [if_neg c1]
  rcases c2 : inp.PreviousTxScript with _ | ps
  · exact hk _ _ fun _ => Nat.le_refl _
  dsimp only
  have fin : ∀ hp hs lo', (∀ f, lo f ≤ lo' f) → Safe T lo' (outp H i flag fun ho => k (.bytes (digestRead H version locktime flag inp ps hp hs ho))) :=
    fun hp hs lo' hl => safe_outp h1 H hi flag _ lo' fun h lo'' hl' => hk _ _ fun f => Nat.le_trans (hl f) (hl' f)
  unfold inpp
  dsimp only
  split_ifs with c3 c4 c5
  · intro l1 _ hl1 l2 _ hl2
    exact fin _ _ _ fun f => Nat.le_trans (up hl1 f) (up hl2 f)
  · intro l1 _ hl1
    exact fin _ _ _ (up hl1)
  · exact absurd c5.1 c3
  · exact fin _ _ _ fun _ => Nat.le_refl _

end

/-- C122: while additions do not overlap, no call panics that asks for an input which was there at the start (below 2^31), whatever is added meanwhile. -/
theorem C122_safe (H : HashFns) (g : Nat → Nat) {tx : Transaction} {pool : Nat → Pool Elem} (hp : HoldsTx pool tx) (es : List Elem) (cs : List OnTx) (hf : ∀ c ∈ cs, c.Fine tx es) {sch : List Nat}
    (ho : NoOverlap g (Mix.start pool (adds es) (cs.map (OnTx.prog H tx))) sch) : (Mix.run g (Mix.start pool (adds es) (cs.map (OnTx.prog H tx))) sch).crashed = false := by
  rw [Bool.eq_false_iff]
  intro hcr
  obtain ⟨i, p, hc, hF⟩ := C122_orderly_crash g pool (fun f => (hp f).1) (adds es) _ sch ho hcr
  have hF := Mix.Finds.imp (Q := FindsAt sch.length fun j => (Mix.run g (Mix.start pool (adds es) (cs.map (OnTx.prog H tx))) (sch.take j)).val)
    (fun _ _ _ hl => ⟨(List.getElem?_eq_some_iff.1 hl.1).1, hl.2⟩) hF
  rw [List.getElem?_map, Option.map_eq_some_iff] at hc
  obtain ⟨c, hc, rfl⟩ := hc
  have hfine := hf c (List.mem_of_getElem? hc)
  -- what the lists can be
  let T : Nat → List Elem → Prop := fun f l => ∃ ts, Outcome (adds es) f (txVal tx f) ts l
  have hT : ∀ j f, T f ((Mix.run g (Mix.start pool (adds es) (cs.map (OnTx.prog H tx))) (sch.take j)).val f) := fun j f => tx_outcome g hp es _ (sch.take j) f
  have T0 : ∀ l, T 0 l → ∃ is : List Input, l = is.map .inl ∧ tx.Inputs <+: is ∧ ∀ i ∈ is, i ∈ tx.Inputs ∨ .inl i ∈ es := by
    intro l hl
    rcases outcome_typed hl with ⟨-, h⟩ | ⟨h, -⟩ | ⟨h, -⟩
    · exact h
    · cases h
    · omega
  have t0 : ∀ l, T 0 l → ∀ e ∈ l, ∃ i, e = .inl i := by
    intro l hl e he
    obtain ⟨is, rfl, -⟩ := T0 l hl
    obtain ⟨i, -, rfl⟩ := List.mem_map.1 he
    exact ⟨i, rfl⟩
  have t1 : ∀ l, T 1 l → ∀ e ∈ l, ∃ i, e = .inr i := by
    intro l hl e he
    rcases outcome_typed hl with ⟨h, -⟩ | ⟨-, os, rfl, -⟩ | ⟨h, -⟩
    · cases h
    · obtain ⟨i, -, rfl⟩ := List.mem_map.1 he
      exact ⟨i, rfl⟩
    · omega
  have tlen : ∀ l, T 0 l → l.length ≤ tx.Inputs.length + es.length := by
    rintro l ⟨ts, nd, xs, ha, rfl⟩
    have h2 : ts.length ≤ (adds es).length := by
      have hsub : ts ⊆ List.range (adds es).length := fun t ht => by
        obtain ⟨x, hx⟩ := addedBy_mem ha t ht
        exact List.mem_range.2 (List.getElem?_eq_some_iff.1 hx).1
      simpa using (List.subperm_of_subset nd hsub).length_le
    have := ha.length_eq
    simp [adds, txVal] at h2 ⊢
    omega
  let lo : Nat → Nat := fun f => (txVal tx f).length
  have hlo : ∀ f, lo f ≤ ((fun j => (Mix.run g (Mix.start pool (adds es) (cs.map (OnTx.prog H tx))) (sch.take j)).val) 0 f).length := by
    intro f
    show (txVal tx f).length ≤ _
    rw [← (hp f).2]
    exact Nat.le_refl _
  have lo0 : lo 0 = tx.Inputs.length := by simp [lo, txVal]
  refine safe_finds (T := T) (tx_grows g hp es _ ho) hT hF lo hlo ?_ rfl
  cases c with
  | inputCount => exact fun _ _ _ => trivial
  | outputCount => exact fun _ _ _ => trivial
  | total => exact fun _ _ _ => trivial
  | toBytes => exact fun _ _ _ _ _ _ _ _ _ _ _ _ => trivial
  | isCoinbase =>
    intro l hl hlen
    dsimp only
    split_ifs with c
    · trivial
    · have c' : 0 < Function.update lo 0 l.length 0 := by rw [Function.update_self]; omega
      refine ⟨c', fun l1 x1 k1 e1 => ?_⟩
      obtain ⟨i1, rfl⟩ := t0 _ k1 _ (List.mem_of_getElem? e1)
      dsimp only
      split_ifs with c2
      · trivial
      · refine ⟨c', fun l1 x1 k1 e1 => ?_⟩
        obtain ⟨i2, rfl⟩ := t0 _ k1 _ (List.mem_of_getElem? e1)
        dsimp only
        split_ifs with c3
        · trivial
        · refine ⟨c', fun l1 x1 k1 e1 => ?_⟩
          obtain ⟨i3, rfl⟩ := t0 _ k1 _ (List.mem_of_getElem? e1)
          trivial
  | digest idx flag => exact safe_sigHash t0 t1 H _ _ hfine.2 flag _ lo (by rw [lo0]; exact hfine.1) fun _ _ _ => trivial
  | sign method idx flag =>
    obtain ⟨f1, f2⟩ : idx.toNat < tx.Inputs.length ∧ idx.toNat < 2 ^ 31 := hfine
    unfold OnTx.prog Mix.sign
    refine safe_sigHash t0 t1 H _ _ f2 flag _ lo (by rw [lo0]; exact f1) fun r lo' hl => ?_
    have hx : idx.toNat < lo' 0 := Nat.lt_of_lt_of_le (by rw [lo0]; exact f1) (hl 0)
    cases r with
    | bytes d =>
      refine ⟨hx, fun _ _ _ _ => ⟨hx, fun _ _ _ _ => ?_⟩⟩
      cases method <;> trivial
    | error e => trivial
    | bool b => trivial
    | number n => trivial
    | signed l => trivial
  | signAuto method mine flag =>
    intro l hl hlen
    obtain ⟨is, rfl, -, his⟩ := T0 l hl
    have hl31 := tlen _ hl
    dsimp only
    rw [ins_map]
    have hsz : is.length ≤ 2 ^ 31 := by have := hfine.2; simp at hl31; omega
    have hpk : ∀ i ∈ is, GetPublicKeyHash i.PreviousTxScript ≠ .panic := fun i hi => hfine.1 i (his i hi)
    have hkf : ∀ acc lo', Safe T lo' ((fun acc => if method = true then .assign [0, 1] (.ret (.signed acc)) else .ret (.signed acc) : List (Nat × Bytes) → Prog Elem Got) acc) := by
      intro acc lo'; cases method <;> trivial
    generalize (fun acc => if method = true then .assign [0, 1] (.ret (.signed acc)) else .ret (.signed acc) : List (Nat × Bytes) → Prog Elem Got) = kf at hkf ⊢
    have loop : ∀ (rest : List Input) (n : Nat) (acc : List (Nat × Bytes)) (lo' : Nat → Nat), (∀ i ∈ rest, GetPublicKeyHash i.PreviousTxScript ≠ .panic) → n + rest.length ≤ lo' 0 → n + rest.length ≤ 2 ^ 31 →
        Safe T lo' (signAutoLoop H tx.Version tx.Locktime mine flag kf n rest acc) := by
      intro rest
      induction rest with
      | nil => intro n acc lo' _ _ _; unfold signAutoLoop; exact hkf acc lo'
      | cons i rest ih =>
        intro n acc lo' hpk hn h31
        have hi := hpk i (List.mem_cons_self ..)
        have hrest := fun j hj => hpk j (List.mem_cons_of_mem _ hj)
        simp only [List.length_cons] at hn h31
        have hu : (UInt32.ofNat n).toNat = n := by rw [UInt32.toNat_ofNat']; exact Nat.mod_eq_of_lt (by omega)
        have next : ∀ acc lo'', (∀ f, lo' f ≤ lo'' f) → Safe T lo'' (signAutoLoop H tx.Version tx.Locktime mine flag kf (n + 1) rest acc) :=
          fun acc lo'' hl => ih (n + 1) acc lo'' hrest (by have := hl 0; omega) (by omega)
        unfold signAutoLoop
        split
        · next e => exact absurd e hi
        · dsimp only
          split
          all_goals
            split_ifs with c
            · refine safe_sigHash t0 t1 H _ _ (by rw [hu]; omega) flag _ lo' (by rw [hu]; omega) fun r lo'' hl => ?_
              have hx : (UInt32.ofNat n).toNat < lo'' 0 := by rw [hu]; have := hl 0; omega
              cases r with
              | bytes d => exact ⟨hx, fun _ _ _ _ => ⟨hx, fun _ _ _ _ => next _ lo'' hl⟩⟩
              | error e => exact next _ lo'' hl
              | bool b => exact next _ lo'' hl
              | number n => exact next _ lo'' hl
              | signed l => exact next _ lo'' hl
            · exact next _ lo' fun _ => Nat.le_refl _
    refine loop is 0 [] _ hpk ?_ ?_
    · rw [Function.update_self]; simp
    · omega

/-! ## How often the calls look -/

section
variable {α β : Type} {M : Nat}

theorem looks_mono {d : Nat} {p : Prog α β} (h : Looks M d p) : ∀ {d' : Nat}, d ≤ d' → Looks M d' p := by
  induction h with
  | ret r => intro d' _; exact .ret r
  | panic => intro d' _; exact .panic
  | count _ ih => intro d' h; obtain ⟨e, rfl⟩ : ∃ e, d' = e + 1 := ⟨d' - 1, by omega⟩; exact .count fun n => ih n (by omega)
  | elem _ ih => intro d' h; obtain ⟨e, rfl⟩ : ∃ e, d' = e + 1 := ⟨d' - 1, by omega⟩; exact .elem fun n => ih n (by omega)
  | range _ ih => intro d' h; obtain ⟨e, rfl⟩ : ∃ e, d' = e + 1 := ⟨d' - 1, by omega⟩; exact .range fun l hl => ih l hl (by omega)
  | assign _ ih => intro d' h; obtain ⟨e, rfl⟩ : ∃ e, d' = e + 1 := ⟨d' - 1, by omega⟩; exact .assign (ih (by omega))
end

theorem looks_outp (M : Nat) (H : HashFns) (i : UInt32) (flag : UInt8) (k : Bytes → Prog Elem Got) (d : Nat) (hk : ∀ h, Looks M d (k h)) : Looks M (d + 2) (outp H i flag k) := by
  have ho : ∀ n, Looks M (d + 1) (outputsHash H n k) := by
    intro n
    unfold outputsHash
    split_ifs
    · exact .range fun l _ => hk _
    · exact .panic
    · refine .elem fun x => ?_
      cases x with
      | inl i => exact .panic
      | inr o => exact hk _
  unfold outp
  split_ifs
  · exact looks_mono (ho _) (by omega)
  · refine .count fun n => ?_
    split_ifs
    · exact ho _
    · exact looks_mono (hk _) (by omega)
  · exact looks_mono (hk _) (by omega)

theorem looks_sigHash (M : Nat) (H : HashFns) (version locktime i : UInt32) (flag : UInt8) (k : Got → Prog Elem Got) (d : Nat) (hk : ∀ h, Looks M d (k h)) : Looks M (d + 5) (sigHash H version locktime i flag k) := by
  rw [sigHash_def]
  refine .elem fun x => ?_
  cases x with
  | inr o => exact .panic
  | inl inp =>
    dsimp only
    by_cases c1 : inp.PreviousTxID = []
    · rw [if_pos c1]; exact looks_mono (hk _) (by omega)
    rw [if_neg c1]
    rcases inp.PreviousTxScript with _ | ps
    · exact looks_mono (hk _) (by omega)
    dsimp only
    have fin : ∀ hp hs, Looks M (d + 2) (outp H i flag fun ho => k (.bytes (digestRead H version locktime flag inp ps hp hs ho))) := fun hp hs => looks_outp M H i flag _ d fun h => hk _
    unfold inpp
    dsimp only
    split_ifs with c3 c4 c5
    · exact .range fun _ _ => .range fun _ _ => fin _ _
    · exact .range fun _ _ => looks_mono (fin _ _) (by omega)
    · exact absurd c5.1 c3
    · exact looks_mono (fin _ _) (by omega)

/-- C122: the calls look at the lists at most so often: `ToBytes` and `IsCoinbase` four times, `GetInputSignatureHash` five times, `SignAuto` at most seven times for each input. -/
theorem C122_looks (M : Nat) (H : HashFns) (tx : Transaction) (c : OnTx) : Looks M (c.looks M) (c.prog H tx) := by
  cases c with
  | inputCount => exact .count fun _ => .ret _
  | outputCount => exact .count fun _ => .ret _
  | total => exact .range fun _ _ => .ret _
  | toBytes => exact .count fun _ => .range fun _ _ => .count fun _ => .range fun _ _ => .ret _
  | isCoinbase =>
    refine .count fun n => ?_
    split_ifs
    · exact .ret _
    · refine .elem fun x => ?_
      cases x with
      | inr o => exact .panic
      | inl i =>
        dsimp only
        split_ifs
        · exact .ret _
        · refine .elem fun x => ?_
          cases x with
          | inr o => exact .panic
          | inl i =>
            dsimp only
            split_ifs
            · exact .ret _
            · refine .elem fun x => ?_
              cases x with
              | inr o => exact .panic
              | inl i => exact .ret _
  | digest idx flag => exact looks_sigHash M H _ _ idx flag _ 0 fun r => .ret r
  | sign method idx flag =>
    unfold OnTx.prog Mix.sign
    refine looks_sigHash M H _ _ idx flag _ 3 fun r => ?_
    cases r with
    | bytes d =>
      refine .elem fun _ => .elem fun _ => ?_
      cases method
      · exact .ret _
      · exact .assign (.ret _)
    | error e => exact .ret _
    | bool b => exact .ret _
    | number n => exact .ret _
    | signed l => exact .ret _
  | signAuto method mine flag =>
    have hkf : ∀ acc, Looks M 1 ((fun acc => if method = true then .assign [0, 1] (.ret (.signed acc)) else .ret (.signed acc) : List (Nat × Bytes) → Prog Elem Got) acc) := by
      intro acc; cases method
      · exact .ret _
      · exact .assign (.ret _)
    have loop : ∀ (rest : List Input) (n : Nat) (acc : List (Nat × Bytes)) (kf : List (Nat × Bytes) → Prog Elem Got), (∀ acc, Looks M 1 (kf acc)) →
        Looks M (7 * rest.length + 1) (signAutoLoop H tx.Version tx.Locktime mine flag kf n rest acc) := by
      intro rest
      induction rest with
      | nil => intro n acc kf hkf; unfold signAutoLoop; exact hkf acc
      | cons i rest ih =>
        intro n acc kf hkf
        have next := fun acc => ih (n + 1) acc kf hkf
        have e : 7 * (i :: rest).length + 1 = (7 * rest.length + 1 + 2) + 5 := by simp; omega
        rw [e]
        unfold signAutoLoop
        split
        · exact .panic
        · dsimp only
          split
          all_goals
            split_ifs with c
            · refine looks_sigHash M H _ _ _ flag _ _ fun r => ?_
              cases r with
              | bytes d => exact .elem fun _ => .elem fun _ => next _
              | error e => exact looks_mono (next _) (by omega)
              | bool b => exact looks_mono (next _) (by omega)
              | number n => exact looks_mono (next _) (by omega)
              | signed l => exact looks_mono (next _) (by omega)
            · exact looks_mono (next _) (by omega)
    unfold OnTx.prog Mix.signAuto OnTx.looks
    refine .range fun l hl => ?_
    refine looks_mono (loop (ins l) 0 [] _ hkf) ?_
    have : (ins l).length ≤ l.length := List.length_filterMap_le _ _
    omega

theorem assign_sigHash {f : Nat} {H : HashFns} {version locktime i : UInt32} {flag : UInt8} {k : Got → Prog Elem Got} (h : MayAssign f (sigHash H version locktime i flag k)) : ∃ r, MayAssign f (k r) := by
  have houtp : ∀ k : Bytes → Prog Elem Got, MayAssign f (outp H i flag k) → ∃ x, MayAssign f (k x) := by
    intro k h
    have ho : ∀ n, MayAssign f (outputsHash H n k) → ∃ x, MayAssign f (k x) := by
      intro n h
      unfold outputsHash at h
      split_ifs at h
      · cases h with | range' l h => exact ⟨_, h⟩
      · cases h
      · cases h with
        | elem' x h =>
          cases x with
          | inl i => cases h
          | inr o => exact ⟨_, h⟩
    unfold outp at h
    split_ifs at h
    · exact ho _ h
    · cases h with
      | count' n h =>
        dsimp only at h
        split_ifs at h
        · exact ho _ h
        · exact ⟨_, h⟩
    · exact ⟨_, h⟩
  rw [sigHash_def] at h
  cases h with
  | elem' x h =>
    cases x with
    | inr o => cases h
    | inl inp =>
      dsimp only at h
      by_cases c1 : inp.PreviousTxID = []
      · rw [if_pos c1] at h; exact ⟨_, h⟩
      rw [if_neg c1] at h
      rcases c2 : inp.PreviousTxScript with _ | ps
      · rw [c2] at h; exact ⟨_, h⟩
      rw [c2] at h
      dsimp only at h
      unfold inpp at h
      dsimp only at h
      split_ifs at h with c3 c4 c5
      · cases h with
        | range' l h =>
          cases h with
          | range' l h => obtain ⟨_, h⟩ := houtp _ h; exact ⟨_, h⟩
      · cases h with
        | range' l h => obtain ⟨_, h⟩ := houtp _ h; exact ⟨_, h⟩
      · exact absurd c5.1 c3
      · obtain ⟨_, h⟩ := houtp _ h; exact ⟨_, h⟩

/-- C122: only the transaction's own `Sign` and `SignAuto` assign. The others leave no trace (C122_no_trace). -/
theorem C122_only_looks (H : HashFns) (tx : Transaction) (c : OnTx) (hc : ¬ c.Assigns) (f : Nat) : ¬ MayAssign f (c.prog H tx) := by
  intro h
  cases c with
  | inputCount => cases h with | count' n h => cases h
  | outputCount => cases h with | count' n h => cases h
  | total => cases h with | range' n h => cases h
  | toBytes => cases h with | count' n h => cases h with | range' n h => cases h with | count' n h => cases h with | range' n h => cases h
  | isCoinbase =>
    cases h with
    | count' n h =>
      dsimp only at h
      split_ifs at h
      · cases h
      · cases h with
        | elem' x h =>
          cases x with
          | inr o => cases h
          | inl i =>
            dsimp only at h
            split_ifs at h
            · cases h
            · cases h with
              | elem' x h =>
                cases x with
                | inr o => cases h
                | inl i =>
                  dsimp only at h
                  split_ifs at h
                  · cases h
                  · cases h with
                    | elem' x h =>
                      cases x with
                      | inr o => cases h
                      | inl i => cases h
  | digest idx flag => obtain ⟨r, h⟩ := assign_sigHash h; cases h
  | sign method idx flag =>
    have : method = false := by simpa [OnTx.Assigns] using hc
    subst this
    unfold OnTx.prog Mix.sign at h
    obtain ⟨r, h⟩ := assign_sigHash h
    cases r with
    | bytes d => cases h with | elem' x h => cases h with | elem' x h => cases h
    | error e => cases h
    | bool b => cases h
    | number n => cases h
    | signed l => cases h
  | signAuto method mine flag =>
    have : method = false := by simpa [OnTx.Assigns] using hc
    subst this
    have loop : ∀ (rest : List Input) (n : Nat) (acc : List (Nat × Bytes)), ¬ MayAssign f (signAutoLoop H tx.Version tx.Locktime mine flag (fun acc => .ret (.signed acc)) n rest acc) := by
      intro rest
      induction rest with
      | nil => intro n acc h; unfold signAutoLoop at h; cases h
      | cons i rest ih =>
        intro n acc h
        unfold signAutoLoop at h
        split at h
        · cases h
        · dsimp only at h
          split at h
          all_goals
            split_ifs at h with c
            · obtain ⟨r, h⟩ := assign_sigHash h
              cases r with
              | bytes d => cases h with | elem' x h => cases h with | elem' x h => exact ih _ _ h
              | error e => exact ih _ _ h
              | bool b => exact ih _ _ h
              | number n => exact ih _ _ h
              | signed l => exact ih _ _ h
            · exact ih _ _ h
    cases h with
    | range' l h => exact loop _ _ _ h

/-! ## C123: `SignAuto` as a program -/

/-- The transaction with the unlocking script that the signer makes for the digest `p.2`, at input `p.1`. -/
def signedWith (is : InternalSigner) (t : Transaction) (p : Nat × Bytes) : Transaction := match is.sign (ReverseBytes p.2) with
  | .ok sig => withUnlocking t p.1 (NewP2PKHUnlockingScript is.pubKey sig is.effFlag).1
  | _ => t

/-- What `SignAuto` makes of a transaction when it signs these digests. -/
def afterSigned (is : InternalSigner) (tx : Transaction) : Res Got → Res Transaction
  | .ok (.signed l) => .ok (l.foldl (signedWith is) tx)
  | .panic => .panic
  | _ => .err ""

theorem signAutoLoop_alone (H : HashFns) (is : InternalSigner) (hok : ∀ d, ∃ sig, is.sign d = .ok sig) (tx : Transaction) (hs : Sized tx) (kf : List (Nat × Bytes) → Prog Elem Got)
    (hkf : ∀ acc, alone (txVal tx) (kf acc) = .ok (.signed acc)) : ∀ (rest : List Input) (i : Nat) (acc : List (Nat × Bytes)), rest = tx.Inputs.drop i → SameButUnlocking tx (acc.foldl (signedWith is) tx) →
    is.signAutoLoop H rest.length i (acc.foldl (signedWith is) tx) =
      afterSigned is tx (alone (txVal tx) (Mix.signAutoLoop H tx.Version tx.Locktime (Hash160 H is.pubKey) is.effFlag kf i rest acc)) := by
  intro rest
  induction rest with
  | nil => intro i acc _ _; unfold Mix.signAutoLoop; rw [hkf]; rfl
  | cons inp rest ih =>
    intro i acc hr hsame
    have hi : tx.Inputs[i]? = some inp := by
      have := congrArg (·[0]?) hr
      simpa using this.symm
    have hrest : rest = tx.Inputs.drop (i + 1) := by
      have := congrArg (List.drop 1) hr
      simpa using this
    have next := fun acc => ih (i + 1) acc hrest
    rw [List.length_cons, InternalSigner.signAutoLoop]
    generalize ht : acc.foldl (signedWith is) tx = t at hsame
    rcases input_same hsame i with ⟨h1, -⟩ | ⟨i1, i2, h1, h2, -, e2⟩
    · rw [hi] at h1; cases h1
    rw [hi] at h1
    cases h1
    unfold InternalSigner.signAutoStep Mix.signAutoLoop
    rw [h2]
    dsimp only
    rw [← e2]
    have go : ∀ pkh : Bytes, (do
          let tx' ← (if hexEncode pkh = hexEncode (Hash160 H is.pubKey) then
            match is.Sign H (UInt32.ofNat i) t with
            | .ok tx' => .ok tx'
            | .err _ => .ok t
            | .panic => .panic
          else .ok t : Res Transaction)
          is.signAutoLoop H rest.length (i + 1) tx') =
        afterSigned is tx (alone (txVal tx) (if hexEncode pkh = hexEncode (Hash160 H is.pubKey) then
          sigHash H tx.Version tx.Locktime (UInt32.ofNat i) is.effFlag fun r => match r with
            | .bytes d => .elem 0 (UInt32.ofNat i).toNat fun _ => .elem 0 (UInt32.ofNat i).toNat fun _ =>
                Mix.signAutoLoop H tx.Version tx.Locktime (Hash160 H is.pubKey) is.effFlag kf (i + 1) rest (acc ++ [((UInt32.ofNat i).toNat, d)])
            | _ => Mix.signAutoLoop H tx.Version tx.Locktime (Hash160 H is.pubKey) is.effFlag kf (i + 1) rest acc
          else Mix.signAutoLoop H tx.Version tx.Locktime (Hash160 H is.pubKey) is.effFlag kf (i + 1) rest acc)) := by
      intro pkh
      by_cases c : hexEncode pkh = hexEncode (Hash160 H is.pubKey)
      · rw [if_pos c, if_pos c, sigHash_alone]
        unfold InternalSigner.Sign
        dsimp only
        rw [sighash_same H hs hsame]
        rcases hd : tx.GetInputSignatureHash H (UInt32.ofNat i) is.effFlag with d | e | _
        · obtain ⟨sig, hsig⟩ := hok (ReverseBytes d)
          obtain ⟨inp', hin⟩ := digest_input hd
          have hlt : (UInt32.ofNat i).toNat < t.Inputs.length := by
            rcases input_same hsame (UInt32.ofNat i).toNat with ⟨k1, -⟩ | ⟨_, _, -, k2, -⟩
            · rw [hin] at k1; cases k1
            · exact (List.getElem?_eq_some_iff.1 k2).1
          have h0 : (txVal tx 0)[(UInt32.ofNat i).toNat]? = some (.inl inp') := by rw [txVal, List.getElem?_map, hin]; rfl
          rw [Res.ok_bind, hsig, Res.ok_bind, (C49_apply t (UInt32.ofNat i) _).1 hlt]
          unfold thenAlone
          dsimp only
          rw [Res.ok_bind, alone_elem h0, alone_elem h0]
          have hw : (acc ++ [((UInt32.ofNat i).toNat, d)]).foldl (signedWith is) tx = withUnlocking t (UInt32.ofNat i).toNat (NewP2PKHUnlockingScript is.pubKey sig is.effFlag).1 := by
            rw [List.foldl_append, ht, List.foldl_cons, List.foldl_nil, signedWith, hsig]
          rw [← next _ (by rw [hw]; exact hsame.trans (withUnlocking_same _ _ _)), hw]
        · show (Res.ok t).bind _ = _
          rw [← ht] at hsame ⊢
          exact next acc hsame
        · rfl
      · rw [if_neg c, if_neg c]
        show is.signAutoLoop H rest.length (i + 1) t = _
        rw [← ht] at hsame ⊢
        exact next acc hsame
    rcases hg : GetPublicKeyHash inp.PreviousTxScript with h | e | _
    · exact go h
    · exact go []
    · rfl

/-- C123: `SignAuto` puts on the transaction the scripts for exactly the digests that its program signs when it is alone; and it panics when that does. -/
theorem C123_signAuto_alone (H : HashFns) (is : InternalSigner) (hok : ∀ d, ∃ sig, is.sign d = .ok sig) (tx : Transaction) (hs : Sized tx) (method : Bool) :
    is.SignAuto H tx = afterSigned is tx (alone (txVal tx) (Mix.signAuto H tx.Version tx.Locktime method (Hash160 H is.pubKey) is.effFlag)) := by
  unfold Mix.signAuto InternalSigner.SignAuto
  rw [alone_range, show ins (txVal tx 0) = tx.Inputs from ins_map _]
  exact signAutoLoop_alone H is hok tx hs _ (fun acc => by cases method <;> rfl) tx.Inputs 0 [] rfl (SameButUnlocking.refl tx)

end Verif.Props
