import Verif.Lemmas.ConcBuild
import Mathlib.Data.List.Dedup
import Mathlib.Tactic.Choose
import Mathlib.Data.List.Induction
import Mathlib.Data.List.Perm.Subperm
/-!
# C105: goroutines adding to one transaction or redeem script
-/
namespace Verif.Props
open Verif Verif.Spec Verif.Build
open Verif.Obj (RefSlice)

variable {α : Type}

/-! ## Every schedule -/

theorem choose_threads {jobs : List (Nat × α)} {slot : Nat → Option Nat} {f : Nat} : ∀ (R : List α) (off : Nat),
    (∀ i x, R[i]? = some x → ∃ t, jobs[t]? = some (f, x) ∧ slot t = some (off + i)) →
    ∃ ts : List Nat, AddedBy jobs f ts R ∧ ts.Nodup ∧ ∀ t ∈ ts, ∃ p, off ≤ p ∧ slot t = some p
  | [], off, _ => ⟨[], .nil, List.nodup_nil, by simp⟩
  | x :: R, off, h => by
    obtain ⟨t, h1, h2⟩ := h 0 x rfl
    obtain ⟨ts, k1, k2, k3⟩ := choose_threads (jobs := jobs) (slot := slot) (f := f) R (off + 1) (fun i y hy => by
      obtain ⟨u, hu1, hu2⟩ := h (i + 1) y hy
      exact ⟨u, hu1, by rw [hu2]; congr 1; omega⟩)
    refine ⟨t :: ts, .cons h1 k1, List.nodup_cons.2 ⟨fun ht => ?_, k2⟩, ?_⟩
    · obtain ⟨p, hp, hs⟩ := k3 t ht
      rw [h2] at hs
      have := Option.some.inj hs
      omega
    · intro u hu
      rcases List.mem_cons.1 hu with rfl | hu
      · exact ⟨off + 0, by omega, h2⟩
      · obtain ⟨p, hp, hs⟩ := k3 u hu
        exact ⟨p, by omega, hs⟩

theorem good_outcome {jobs : List (Nat × α)} {slot : Nat → Option Nat} {f : Nat} {B : List α} {P : Pool α} (h : Good jobs slot f B P P.hdr) :
    ∃ ts, Outcome jobs f B ts P.val ∧ P.val.length = P.hdr.len := by
  have hlen : P.val.length = P.hdr.len := by
    simp only [Pool.val, Pool.elems, List.length_take]
    have := h.len; have := h.cap; omega
  have hB : P.val = B ++ P.val.drop B.length := by
    have : P.val.take B.length = B := by
      apply List.ext_getElem?
      intro i
      rw [List.getElem?_take]
      split_ifs with c
      · have hi : i < P.val.length := by rw [hlen]; have := h.base; omega
        have := h.ent i _ (List.getElem?_eq_getElem hi)
        unfold EntOK at this
        rw [if_pos c] at this
        rw [this, List.getElem?_eq_getElem hi]
      · rw [List.getElem?_eq_none (by omega)]
    conv_lhs => rw [← List.take_append_drop B.length P.val, this]
  obtain ⟨ts, k1, k2, -⟩ := choose_threads (jobs := jobs) (slot := slot) (f := f) (P.val.drop B.length) B.length (fun i x hx => by
    rw [List.getElem?_drop] at hx
    have := h.ent _ x hx
    unfold EntOK at this
    rwa [if_neg (by omega)] at this)
  exact ⟨ts, ⟨k2, _, k1, hB⟩, hlen⟩

variable [Inhabited α]

/-- C105, at any moment of any schedule: the elements that were there at the start are there, in place, followed by elements added by some of the goroutines, each goroutine's at most once. Nothing else, no
nil and no element of another variable, is ever seen. -/
theorem C105_always (g : Nat → Nat) (pool : Nat → Pool α) (jobs : List (Nat × α)) (f : Nat) (ok : SliceOK (pool f)) (sch : List Nat) :
    ∃ ts, Outcome jobs f (pool f).val ts ((run g (start pool jobs) sch).pool f).val := by
  obtain ⟨slot, h⟩ := inv_run g sch (inv_start pool jobs f ok)
  obtain ⟨ts, h, -⟩ := good_outcome h.hdr
  exact ⟨ts, h⟩

omit [Inhabited α] in
theorem outcome_length {jobs : List (Nat × α)} {f : Nat} {B l : List α} {ts : List Nat} (h : Outcome jobs f B ts l) : l.length = B.length + ts.length := by
  obtain ⟨-, xs, h1, rfl⟩ := h
  simp [h1.length_eq]

omit [Inhabited α] in
theorem addedBy_mem {jobs : List (Nat × α)} {f : Nat} {ts : List Nat} {xs : List α} (h : AddedBy jobs f ts xs) : ∀ t ∈ ts, ∃ x, jobs[t]? = some (f, x) := by
  induction h with
  | nil => simp
  | cons h1 h2 ih =>
    intro t ht
    rcases List.mem_cons.1 ht with rfl | ht
    · exact ⟨_, h1⟩
    · exact ih t ht

theorem finished_outcome (g : Nat → Nat) (pool : Nat → Pool α) (jobs : List (Nat × α)) (f : Nat) (ok : SliceOK (pool f)) (sch : List Nat)
    (hf : (run g (start pool jobs) sch).finished) :
    ∃ ts, Outcome jobs f (pool f).val ts ((run g (start pool jobs) sch).pool f).val ∧ (ts = [] ↔ ∀ j ∈ jobs, j.1 ≠ f) := by
  obtain ⟨slot, h⟩ := inv_run g sch (inv_start pool jobs f ok)
  obtain ⟨ts, ho, hl⟩ := good_outcome h.hdr
  refine ⟨ts, ho, ?_⟩
  have hlen := outcome_length ho
  constructor
  · rintro rfl j hj rfl
    obtain ⟨t, ht⟩ := List.getElem?_of_mem hj
    rw [← h.same, List.getElem?_map, Option.map_eq_some_iff] at ht
    obtain ⟨th, h1, h2⟩ := ht
    have hd := hf th (List.mem_of_getElem? h1)
    have := h.thr t th h1 (by rw [← h2])
    rw [hd] at this
    simp only [TInv] at this
    simp only [List.length_nil] at hlen
    omega
  · intro hno
    obtain ⟨-, xs, h1, -⟩ := ho
    by_contra hne
    obtain ⟨t, ts', rfl⟩ := List.exists_cons_of_ne_nil hne
    obtain ⟨x, hx⟩ := addedBy_mem h1 t (by simp)
    exact hno _ (List.mem_of_getElem? hx) rfl

/-! ## Every outcome has a schedule -/

/-- What is the same in two states but for the goroutines `us` and variable `f`. -/
structure RestL (us : List Nat) (f : Nat) (s s' : Sys α) : Prop where
  pool : ∀ f', f' ≠ f → s'.pool f' = s.pool f'
  threads : ∀ u, u ∉ us → s'.threads[u]? = s.threads[u]?
  len : s'.threads.length = s.threads.length

omit [Inhabited α] in
theorem RestL.nil (f : Nat) (s : Sys α) : RestL [] f s s := ⟨fun _ _ => rfl, fun _ _ => rfl, rfl⟩

omit [Inhabited α] in
theorem RestL.cons {t f : Nat} {us : List Nat} {a b c : Sys α} (h : Rest t f a b) (k : RestL us f b c) : RestL (t :: us) f a c :=
  ⟨fun f' h' => (k.pool f' h').trans (h.pool f' h'),
   fun u hu => (k.threads u (fun hm => hu (by simp [hm]))).trans (h.threads u (fun he => hu (by simp [he]))), k.len.trans h.len⟩

omit [Inhabited α] in
theorem RestL.append {f : Nat} {us vs : List Nat} {a b c : Sys α} (h : RestL us f a b) (k : RestL vs f b c) : RestL (us ++ vs) f a c :=
  ⟨fun f' h' => (k.pool f' h').trans (h.pool f' h'),
   fun u hu => (k.threads u (fun hm => hu (by simp [hm]))).trans (h.threads u (fun hm => hu (by simp [hm]))), k.len.trans h.len⟩

/-- All of `us` read the header. -/
theorem loads (g : Nat → Nat) (f : Nat) : ∀ (us : List Nat) (s : Sys α), us.Nodup → (∀ u ∈ us, ∃ e, s.threads[u]? = some ⟨f, e, .load⟩) →
    RestL us f s (run g s us) ∧ (run g s us).pool f = s.pool f ∧ ∀ u ∈ us, ∀ e, s.threads[u]? = some ⟨f, e, .load⟩ → (run g s us).threads[u]? = some ⟨f, e, .place (s.pool f).hdr⟩
  | [], s, _, _ => ⟨RestL.nil f s, rfl, by simp⟩
  | u :: us, s, nd, h => by
    obtain ⟨hu, nd⟩ := List.nodup_cons.1 nd
    obtain ⟨e, he⟩ := h u (by simp)
    obtain ⟨r1, p1, t1⟩ := step_eq g he
    simp only [pcStep] at p1 t1
    obtain ⟨r2, p2, t2⟩ := loads g f us (step g s u) nd (fun v hv => by
      rw [r1.threads v (fun c => hu (c ▸ hv))]; exact h v (by simp [hv]))
    refine ⟨RestL.cons r1 r2, p2.trans p1, ?_⟩
    intro v hv e' he'
    rcases List.mem_cons.1 hv with rfl | hv
    · rw [show run g s (v :: us) = run g (step g s v) us from rfl, r2.threads v hu, t1]
      rw [he] at he'; cases he'; rfl
    · rw [← p1]
      exact t2 v hv e' (by rw [r1.threads v (fun c => hu (c ▸ hv))]; exact he')

/-- All of `us`, which have read the header `h`, run one after the other to their ends. -/
theorem finishLost (g : Nat → Nat) (f : Nat) (h : RefSlice) (N : Nat) (hN : h.len + 3 ≤ N) (hl : h.len ≤ h.cap) : ∀ (us : List Nat) (s : Sys α), us.Nodup →
    h.cap ≤ ((s.pool f).arrays.getD h.arr []).length → SliceOK (s.pool f) → (∀ u ∈ us, ∃ e, s.threads[u]? = some ⟨f, e, .place h⟩) →
    let s' := run g s (us.flatMap fun u => List.replicate N u)
    RestL us f s s' ∧ (s'.pool f).elems h = (s.pool f).elems h ∧ h.cap ≤ ((s'.pool f).arrays.getD h.arr []).length ∧ SliceOK (s'.pool f) ∧
      ∀ u ∈ us, ∃ th, s'.threads[u]? = some th ∧ th.pc = .done
  | [], s, _, hc, ok, _ => ⟨RestL.nil f s, rfl, hc, ok, by simp⟩
  | u :: us, s, nd, hc, ok, hp => by
    intro s'
    obtain ⟨hu, nd⟩ := List.nodup_cons.1 nd
    obtain ⟨e, he⟩ := hp u (by simp)
    obtain ⟨r1, t1, st⟩ := solo_place g N he hl hc hN
    obtain ⟨o1, o2⟩ := st.old h (Nat.le_refl _) hl hc
    have ih := finishLost g f h N hN hl us (run g s (List.replicate N u)) nd o2 st.ok (fun v hv => by
      rw [r1.threads v (fun c => hu (c ▸ hv))]; exact hp v (by simp [hv]))
    have es : s' = run g (run g s (List.replicate N u)) (us.flatMap fun u => List.replicate N u) := by
      show run g s (List.flatMap _ (u :: us)) = _
      rw [List.flatMap_cons, run_append]
    rw [es]
    obtain ⟨k1, k2, k3, k4, k5⟩ := ih
    refine ⟨RestL.cons r1 k1, k2.trans o1, k3, k4, ?_⟩
    intro v hv
    rcases List.mem_cons.1 hv with rfl | hv
    · exact ⟨_, (k1.threads v hu).trans t1, rfl⟩
    · exact k5 v hv

omit [Inhabited α] in
theorem val_length {P : Pool α} (ok : SliceOK P) : P.val.length = P.hdr.len := by
  simp only [Pool.val, Pool.elems, List.length_take]
  have := ok.1; have := ok.2; omega

omit [Inhabited α] in
theorem forall₂_threads {s s' : Sys α} {f : Nat} {us : List Nat} {xs : List α} (h : List.Forall₂ (fun u x => s.threads[u]? = some ⟨f, x, .load⟩) us xs)
    (k : ∀ v ∈ us, s'.threads[v]? = s.threads[v]?) : List.Forall₂ (fun u x => s'.threads[u]? = some ⟨f, x, .load⟩) us xs := by
  induction h with
  | nil => exact .nil
  | cons h1 h2 ih => exact .cons (by rw [k _ (by simp)]; exact h1) (ih fun v hv => k v (by simp [hv]))

/-- All of `us` run their calls one after the other. -/
theorem inTurn (g : Nat → Nat) (f : Nat) (N : Nat) : ∀ (us : List Nat) (xs : List α) (s : Sys α), us.Nodup → SliceOK (s.pool f) →
    List.Forall₂ (fun u x => s.threads[u]? = some ⟨f, x, .load⟩) us xs → (s.pool f).val.length + us.length + 4 ≤ N →
    let s' := run g s (us.flatMap fun u => List.replicate N u)
    RestL us f s s' ∧ (s'.pool f).val = (s.pool f).val ++ xs ∧ SliceOK (s'.pool f) ∧ ∀ u ∈ us, ∃ th, s'.threads[u]? = some th ∧ th.pc = .done
  | [], _, s, _, ok, .nil, _ => ⟨RestL.nil f s, by simp [run], ok, by simp⟩
  | u :: us, x :: xs, s, nd, ok, .cons hx hxs, hN => by
    intro s'
    obtain ⟨hu, nd⟩ := List.nodup_cons.1 nd
    have hvl := val_length ok
    simp only [List.length_cons] at hN
    obtain ⟨r1, t1, st⟩ := solo_load g N hx ok (by omega)
    have hv : (((run g s (List.replicate N u)).pool f)).val = (s.pool f).val ++ [x] := st.val
    have ih := inTurn g f N us xs (run g s (List.replicate N u)) nd st.ok (forall₂_threads hxs fun v hv => r1.threads v fun c => hu (c ▸ hv)) (by rw [hv]; simp; omega)
    have es : s' = run g (run g s (List.replicate N u)) (us.flatMap fun u => List.replicate N u) := by
      show run g s (List.flatMap _ (u :: us)) = _
      rw [List.flatMap_cons, run_append]
    rw [es]
    obtain ⟨k1, k2, k3, k4⟩ := ih
    refine ⟨RestL.cons r1 k1, by rw [k2, hv]; simp, k3, ?_⟩
    intro v hv
    rcases List.mem_cons.1 hv with rfl | hv
    · exact ⟨_, (k1.threads v hu).trans t1, rfl⟩
    · exact k4 v hv


/-- One variable: the goroutines `L` and `t` read the header, those of `L` finish, then `t`; then those of `ts` call one after the other. -/
theorem oneField (g : Nat → Nat) (f : Nat) (N : Nat) (L : List Nat) (t : Nat) (ts : List Nat) (x : α) (xs : List α) (s : Sys α) (nd : (L ++ t :: ts).Nodup) (ok : SliceOK (s.pool f))
    (hL : ∀ u ∈ L, ∃ e, s.threads[u]? = some ⟨f, e, .load⟩) (ht : s.threads[t]? = some ⟨f, x, .load⟩)
    (hts : List.Forall₂ (fun u x => s.threads[u]? = some ⟨f, x, .load⟩) ts xs) (hN : (s.pool f).val.length + ts.length + 5 ≤ N) :
    ∃ sch, RestL (L ++ t :: ts) f s (run g s sch) ∧ ((run g s sch).pool f).val = (s.pool f).val ++ x :: xs ∧
      ∀ u ∈ L ++ t :: ts, ∃ th, (run g s sch).threads[u]? = some th ∧ th.pc = .done := by
  have hvl := val_length ok
  obtain ⟨ndL, ndT, dis⟩ := List.nodup_append.1 nd
  obtain ⟨htn, ndts⟩ := List.nodup_cons.1 ndT
  have htL : t ∉ L := fun h => dis t h t (by simp) rfl
  have ndLt : (L ++ [t]).Nodup := List.nodup_append.2 ⟨ndL, by simp, fun a ha b hb => by
    rw [List.mem_singleton] at hb; exact fun c => htL (hb ▸ c ▸ ha)⟩
  obtain ⟨r1, p1, q1⟩ := loads g f (L ++ [t]) s ndLt (fun u hu => by
    rcases List.mem_append.1 hu with hu | hu
    · exact hL u hu
    · rw [List.mem_singleton] at hu; exact ⟨x, hu ▸ ht⟩)
  obtain ⟨r2, e2, c2, ok2, d2⟩ := finishLost g f (s.pool f).hdr N (by omega) ok.1 L (run g s (L ++ [t])) ndL (by rw [p1]; exact ok.2) (by rw [p1]; exact ok) (fun u hu => by
    obtain ⟨e, he⟩ := hL u hu
    exact ⟨e, q1 u (by simp [hu]) e he⟩)
  generalize e1 : run g s (L ++ [t]) = s1 at *
  generalize e3 : run g s1 (L.flatMap fun u => List.replicate N u) = s2 at *
  have ht2 : s2.threads[t]? = some ⟨f, x, .place (s.pool f).hdr⟩ := by
    rw [r2.threads t htL]; exact q1 t (by simp) x ht
  obtain ⟨r4, t4, st⟩ := solo_place g N ht2 ok.1 c2 (by omega)
  have hv : ((run g s2 (List.replicate N t)).pool f).val = (s.pool f).val ++ [x] := by
    rw [st.val, e2, p1]; rfl
  have hts' : ∀ v ∈ ts, (run g s2 (List.replicate N t)).threads[v]? = s.threads[v]? := by
    intro v hv
    have a : v ≠ t := fun c => htn (c ▸ hv)
    have b : v ∉ L := fun c => dis v c v (by simp [hv]) rfl
    rw [r4.threads v a, r2.threads v b, r1.threads v (by simp [a, b])]
  obtain ⟨r5, v5, -, d5⟩ := inTurn g f N ts xs (run g s2 (List.replicate N t)) ndts st.ok (forall₂_threads hts hts') (by rw [hv]; simp; omega)
  refine ⟨(L ++ [t]) ++ (L.flatMap fun u => List.replicate N u) ++ List.replicate N t ++ (ts.flatMap fun u => List.replicate N u), ?_⟩
  rw [run_append, run_append, run_append, e1, e3]
  refine ⟨?_, by rw [v5, hv]; simp, ?_⟩
  · have R := ((r1.append r2).append (RestL.cons r4 (RestL.nil f _))).append r5
    refine ⟨R.pool, fun u hu => R.threads u ?_, R.len⟩
    intro hm
    simp at hm hu
    tauto
  · intro u hu
    rcases List.mem_append.1 hu with hu | hu
    · have a : u ≠ t := fun c => htL (c ▸ hu)
      have b : u ∉ ts := fun c => dis u hu u (by simp [c]) rfl
      rw [r5.threads u b, r4.threads u a]
      exact d2 u hu
    · rcases List.mem_cons.1 hu with rfl | hu
      · exact ⟨_, (r5.threads u htn).trans t4, rfl⟩
      · exact d5 u hu

/-- The goroutines of the fields `fs`. -/
theorem allFields (g : Nat → Nat) (jobs : List (Nat × α)) (ts : Nat → List Nat) (xs : Nat → List α) (nd : ∀ f, (ts f).Nodup) (ad : ∀ f, AddedBy jobs f (ts f) (xs f)) :
    ∀ (fs : List Nat) (s : Sys α), fs.Nodup → (∀ f ∈ fs, SliceOK (s.pool f)) → (∀ f ∈ fs, ts f ≠ []) →
    (∀ (t f : Nat) (x : α), jobs[t]? = some (f, x) → f ∈ fs → s.threads[t]? = some ⟨f, x, .load⟩) →
    ∃ sch, (∀ f ∈ fs, ((run g s sch).pool f).val = (s.pool f).val ++ xs f) ∧ (∀ f, f ∉ fs → (run g s sch).pool f = s.pool f) ∧
      (∀ (t f : Nat) (x : α), jobs[t]? = some (f, x) → f ∈ fs → ∃ th : Thread α, (run g s sch).threads[t]? = some th ∧ th.pc = .done) ∧
      (∀ t : Nat, (∀ (f : Nat) (x : α), jobs[t]? = some (f, x) → f ∉ fs) → (run g s sch).threads[t]? = s.threads[t]?) ∧ (run g s sch).threads.length = s.threads.length
  | [], s, _, _, _, _ => ⟨[], by simp, fun _ _ => rfl, by simp, fun _ _ => rfl, rfl⟩
  | f :: fs, s, ndf, ok, ne, hth => by
    obtain ⟨hf, ndf⟩ := List.nodup_cons.1 ndf
    obtain ⟨t, ts', ets⟩ := List.exists_cons_of_ne_nil (ne f (by simp))
    have had := ad f
    rw [ets] at had
    obtain ⟨x, xs', exs⟩ : ∃ x xs', xs f = x :: xs' := by
      cases hx : xs f with
      | nil => rw [hx] at had; cases had
      | cons x xs' => exact ⟨x, xs', rfl⟩
    rw [exs] at had
    obtain ⟨hx, hxs⟩ := List.forall₂_cons.1 had
    have ndt := nd f
    rw [ets] at ndt
    let L := (List.range jobs.length).filter fun u => decide ((jobs[u]?.map Prod.fst) = some f ∧ u ∉ t :: ts')
    have hL : ∀ u, u ∈ L ↔ (∃ e, jobs[u]? = some (f, e)) ∧ u ∉ t :: ts' := by
      intro u
      simp only [L, List.mem_filter, List.mem_range, decide_eq_true_eq]
      constructor
      · rintro ⟨-, h1, h2⟩
        obtain ⟨j, hj, rfl⟩ := Option.map_eq_some_iff.1 h1
        exact ⟨⟨j.2, hj⟩, h2⟩
      · rintro ⟨⟨e, he⟩, h2⟩
        exact ⟨(List.getElem?_eq_some_iff.1 he).1, by rw [he]; rfl, h2⟩
    have mem : ∀ u, u ∈ L ++ t :: ts' ↔ ∃ e, jobs[u]? = some (f, e) := by
      intro u
      rw [List.mem_append, hL]
      constructor
      · rintro (h | h)
        · exact h.1
        · exact addedBy_mem had u h
      · intro h
        by_cases c : u ∈ t :: ts'
        · exact .inr c
        · exact .inl ⟨h, c⟩
    have ndA : (L ++ t :: ts').Nodup := List.nodup_append.2 ⟨List.nodup_range.filter _, ndt, fun a ha b hb c => ((hL a).1 ha).2 (c ▸ hb)⟩
    obtain ⟨sch1, r1, v1, d1⟩ := oneField g f ((s.pool f).val.length + ts'.length + 5) L t ts' x xs' s ndA (ok f (by simp))
      (fun u hu => by obtain ⟨⟨e, he⟩, -⟩ := (hL u).1 hu; exact ⟨e, hth u f e he (by simp)⟩) (hth t f x hx (by simp))
      (by
        have := hxs
        unfold AddedBy at had
        refine List.Forall₂.imp (fun a b h => hth a f b h (by simp)) hxs) (Nat.le_refl _)
    have hother : ∀ (t' f' : Nat) (x' : α), jobs[t']? = some (f', x') → f' ≠ f → (run g s sch1).threads[t']? = s.threads[t']? := by
      intro t' f' x' h1 h2
      apply r1.threads
      rw [mem]
      rintro ⟨e, he⟩
      rw [h1] at he
      cases he
      exact h2 rfl
    obtain ⟨sch2, v2, p2, d2, o2, l2⟩ := allFields g jobs ts xs nd ad fs (run g s sch1) ndf (fun f' h' => by
        rw [r1.pool f' (fun c => hf (c ▸ h'))]; exact ok f' (by simp [h'])) (fun f' h' => ne f' (by simp [h'])) (fun t' f' x' h1 h2 => by
        rw [hother t' f' x' h1 (fun c => hf (c ▸ h2))]; exact hth t' f' x' h1 (by simp [h2]))
    refine ⟨sch1 ++ sch2, ?_⟩
    rw [run_append]
    refine ⟨?_, ?_, ?_, ?_, l2.trans r1.len⟩
    · intro f' h'
      rcases List.mem_cons.1 h' with rfl | h'
      · rw [p2 _ hf, v1, exs]
      · rw [v2 f' h', r1.pool f' (fun c => hf (c ▸ h'))]
    · intro f' h'
      rw [p2 f' (fun c => h' (by simp [c])), r1.pool f' (fun c => h' (by simp [c]))]
    · intro t' f' x' h1 h2
      rcases List.mem_cons.1 h2 with rfl | h2
      · rw [o2 t' (fun f'' x'' h => by rw [h1] at h; cases h; exact hf)]
        exact d1 t' ((mem t').2 ⟨x', h1⟩)
      · exact d2 t' f' x' h1 h2
    · intro t' h
      rw [o2 t' (fun f' x' h1 c => h f' x' h1 (by simp [c])), r1.threads t' ?_]
      rw [mem]
      rintro ⟨e, he⟩
      exact h f e he (by simp)

/-- C105, exactly: goroutines each add one element to a variable. Once all have returned, the values `l` of the variables are possible, under some schedule, when and only when each variable holds what
it held at the start followed by elements added by some of its goroutines, each at most once and at least one of them, in any order. So: nothing that was there before is lost, at least one added
element stays, all the others can be lost and the order is free. -/
theorem C105_outcomes (g : Nat → Nat) (pool : Nat → Pool α) (jobs : List (Nat × α)) (ok : ∀ f, SliceOK (pool f)) (l : Nat → List α) :
    (∃ sch, (run g (start pool jobs) sch).finished ∧ ∀ f, ((run g (start pool jobs) sch).pool f).val = l f) ↔
      ∀ f, ∃ ts, Outcome jobs f (pool f).val ts (l f) ∧ (ts = [] ↔ ∀ j ∈ jobs, j.1 ≠ f) := by
  constructor
  · rintro ⟨sch, hf, hl⟩ f
    rw [← hl f]
    exact finished_outcome g pool jobs f (ok f) sch hf
  · intro h
    choose ts ho hne using h
    choose nd xs ad hl using ho
    have hmem : ∀ f, f ∈ (jobs.map Prod.fst).dedup ↔ ∃ j ∈ jobs, j.1 = f := by
      intro f; rw [List.mem_dedup, List.mem_map]
    obtain ⟨sch, v, p, d, -, len⟩ := allFields g jobs ts xs nd ad (jobs.map Prod.fst).dedup (start pool jobs) (List.nodup_dedup _) (fun f _ => ok f)
      (fun f hf c => by
        obtain ⟨j, hj, e⟩ := (hmem f).1 hf
        exact (hne f).1 c j hj e)
      (fun t f x h _ => by simp [start, h])
    refine ⟨sch, ?_, ?_⟩
    · intro th hth
      obtain ⟨t, ht⟩ := List.getElem?_of_mem hth
      have hlt : t < jobs.length := by
        have := (List.getElem?_eq_some_iff.1 ht).1
        rw [len] at this
        simpa [start] using this
      obtain ⟨th', h1, h2⟩ := d t (jobs[t]).1 (jobs[t]).2 (List.getElem?_eq_getElem hlt) ((hmem _).2 ⟨_, List.getElem_mem hlt, rfl⟩)
      rw [ht] at h1
      cases h1
      exact h2
    · intro f
      by_cases hf : f ∈ (jobs.map Prod.fst).dedup
      · rw [v f hf, hl f]; rfl
      · rw [p f hf, hl f]
        have : ts f = [] := (hne f).2 fun j hj e => hf ((hmem f).2 ⟨j, hj, e⟩)
        have had := ad f
        rw [this] at had
        have : xs f = [] := by generalize xs f = y at had; cases had; rfl
        rw [this]; simp [start]

/-! ## Consequences -/

/-- C105: any one of the goroutines of a variable can be the only one whose element is kept. -/
theorem C105_lost (g : Nat → Nat) (pool : Nat → Pool α) (jobs : List (Nat × α)) (ok : ∀ f, SliceOK (pool f)) (f t : Nat) (x : α) (ht : jobs[t]? = some (f, x)) :
    ∃ sch, (run g (start pool jobs) sch).finished ∧ ((run g (start pool jobs) sch).pool f).val = (pool f).val ++ [x] := by
  have base : ∀ f', ∃ l ts, Outcome jobs f' (pool f').val ts l ∧ (ts = [] ↔ ∀ j ∈ jobs, j.1 ≠ f') := by
    intro f'
    by_cases h : ∃ j ∈ jobs, j.1 = f'
    · obtain ⟨j, hj, e⟩ := h
      obtain ⟨u, hu⟩ := List.getElem?_of_mem hj
      exact ⟨_, [u], ⟨by simp, [j.2], .cons (by rw [hu, ← e]) .nil, rfl⟩, by simp; exact ⟨j.2, e ▸ hj⟩⟩
    · exact ⟨_, [], ⟨by simp, [], .nil, rfl⟩, by simp; rintro a b hab rfl; exact h ⟨_, hab, rfl⟩⟩
  choose l₀ hl₀ using base
  obtain ⟨sch, h1, h2⟩ := (C105_outcomes g pool jobs ok (fun f' => if f' = f then (pool f).val ++ [x] else l₀ f')).2 (by
    intro f'
    by_cases h : f' = f
    · subst h
      rw [if_pos rfl]
      refine ⟨[t], ⟨by simp, [x], .cons ht .nil, rfl⟩, by simp; exact ⟨x, List.mem_of_getElem? ht⟩⟩
    · rw [if_neg h]; exact hl₀ f')
  exact ⟨sch, h1, by rw [h2 f, if_pos rfl]⟩

/-- C105: a variable with one goroutine gets exactly its element, whatever the goroutines of the other variables do. -/
theorem C105_single (g : Nat → Nat) (pool : Nat → Pool α) (jobs : List (Nat × α)) (f : Nat) (ok : SliceOK (pool f)) (t : Nat) (x : α) (ht : jobs[t]? = some (f, x))
    (only : ∀ (u : Nat) (y : α), jobs[u]? = some (f, y) → u = t) (sch : List Nat) (hf : (run g (start pool jobs) sch).finished) :
    ((run g (start pool jobs) sch).pool f).val = (pool f).val ++ [x] := by
  obtain ⟨ts, ⟨nd, xs, ad, hl⟩, hne⟩ := finished_outcome g pool jobs f ok sch hf
  rw [hl]
  have all : ∀ u ∈ ts, u = t := fun u hu => by
    obtain ⟨y, hy⟩ := addedBy_mem ad u hu
    exact only u y hy
  match ts, xs, nd, ad, hne, all with
  | [], _, _, _, hne, _ => exact absurd rfl (hne.1 rfl _ (List.mem_of_getElem? ht))
  | [u], [y], _, ad, _, all =>
    obtain ⟨h1, -⟩ := List.forall₂_cons.1 ad
    rw [all u (by simp), ht] at h1
    cases h1; rfl
  | u :: v :: ts, _, nd, _, _, all =>
    have a := all u (by simp)
    have b := all v (by simp)
    subst a; subst b; simp at nd

/-- C105: goroutines run one after the other, in any order `us`, lose nothing: each variable gets its elements in that order. -/
theorem C105_one_after_other (g : Nat → Nat) (jobs : List (Nat × α)) (N : Nat) : ∀ (us : List Nat) (s : Sys α), us.Nodup → (∀ f, SliceOK (s.pool f)) →
    (∀ u ∈ us, ∃ f x, jobs[u]? = some (f, x) ∧ s.threads[u]? = some ⟨f, x, .load⟩) → (∀ f, (s.pool f).val.length + us.length + 4 ≤ N) →
    ∀ f, ((run g s (us.flatMap fun u => List.replicate N u)).pool f).val =
      (s.pool f).val ++ us.filterMap fun u => (jobs[u]?).bind fun j => if j.1 = f then some j.2 else none
  | [], s, _, _, _, _, f => by simp [run]
  | u :: us, s, nd, ok, hth, hN, f => by
    obtain ⟨hu, nd⟩ := List.nodup_cons.1 nd
    obtain ⟨fu, x, hj, ht⟩ := hth u (by simp)
    simp only [List.length_cons] at hN
    obtain ⟨r1, -, st⟩ := solo_load g N ht (ok fu) (by have := hN fu; rw [val_length (ok fu)] at this; omega)
    have hv : ((run g s (List.replicate N u)).pool fu).val = (s.pool fu).val ++ [x] := st.val
    have ih := C105_one_after_other g jobs N us (run g s (List.replicate N u)) nd (fun f' => by
        by_cases h : f' = fu
        · subst h; exact st.ok
        · rw [r1.pool f' h]; exact ok f') (fun v hv => by
        rw [r1.threads v (fun c => hu (c ▸ hv))]; exact hth v (by simp [hv])) (fun f' => by
        have := hN f'
        by_cases h : f' = fu
        · subst h; rw [hv]; simp; omega
        · rw [r1.pool f' h]; omega) f
    rw [List.flatMap_cons, run_append, ih, List.filterMap_cons, hj]
    by_cases h : f = fu
    · subst h; simp [hv]
    · rw [r1.pool f h]; simp [Ne.symm h]

/-! ## Every goroutine returns -/

/-- The steps a call still needs, when no header is longer than `M`. -/
def left (M : Nat) : PC α → Nat
  | .load => M + 4
  | .place s => s.len + 3
  | .copy s acc => s.len - acc.length + 2
  | .store _ => 1
  | .done => 0

theorem left_step (g : Nat → Nat) (f : Nat) (e : α) (P : Pool α) (M : Nat) (hM : P.hdr.len ≤ M) (pc : PC α) : left M (pcStep g f e P pc).2.1 ≤ left M pc - 1 := by
  cases pc with
  | load => simp only [pcStep, left]; omega
  | place s => simp only [pcStep]; split_ifs <;> simp [left]
  | copy s acc => simp only [pcStep]; split_ifs <;> simp [left]; omega
  | store h => simp [pcStep, left]
  | done => simp [pcStep, left]

theorem left_run (g : Nat → Nat) (pool : Nat → Pool α) (jobs : List (Nat × α)) (t f : Nat) (x : α) (ok : SliceOK (pool f)) (ht : jobs[t]? = some (f, x)) (sch : List Nat) :
    ∃ pc, (run g (start pool jobs) sch).threads[t]? = some ⟨f, x, pc⟩ ∧ left ((pool f).val.length + jobs.length) pc ≤ (pool f).val.length + jobs.length + 4 - sch.count t := by
  induction sch using List.reverseRecOn with
  | nil => exact ⟨.load, by simp [run, start, ht], by simp [left]⟩
  | append_singleton sch u ih =>
    obtain ⟨pc, h1, h2⟩ := ih
    rw [run_append]
    have hM : ((run g (start pool jobs) sch).pool f).hdr.len ≤ (pool f).val.length + jobs.length := by
      obtain ⟨slot, h⟩ := inv_run g sch (inv_start pool jobs f ok)
      obtain ⟨ts, ho, hl⟩ := good_outcome h.hdr
      have := outcome_length ho
      obtain ⟨nd, xs, ad, -⟩ := ho
      have hle : ts.length ≤ jobs.length := by
        have : ts ⊆ List.range jobs.length := fun v hv => by
          obtain ⟨y, hy⟩ := addedBy_mem ad v hv
          exact List.mem_range.2 (List.getElem?_eq_some_iff.1 hy).1
        simpa using (nd.subperm this).length_le
      omega
    by_cases c : u = t
    · subst c
      obtain ⟨-, -, t1⟩ := step_eq g h1
      refine ⟨_, t1, ?_⟩
      have := left_step g f x ((run g (start pool jobs) sch).pool f) _ hM pc
      rw [List.count_append, List.count_singleton_self]
      omega
    · refine ⟨pc, ?_, ?_⟩
      · show (step g _ u).threads[t]? = _
        rw [← h1]
        unfold step
        split
        · rfl
        · exact List.getElem?_set_ne c
      · rw [List.count_append, List.count_singleton, beq_false_of_ne c]; exact h2

/-- C105: whatever the other goroutines do, a goroutine that makes as many steps as the variable held elements at the start, plus the number of goroutines, plus four, has returned: none waits for
another. -/
theorem C105_finishes (g : Nat → Nat) (pool : Nat → Pool α) (jobs : List (Nat × α)) (t f : Nat) (x : α) (ok : SliceOK (pool f)) (ht : jobs[t]? = some (f, x)) (sch : List Nat)
    (h : (pool f).val.length + jobs.length + 4 ≤ sch.count t) : (run g (start pool jobs) sch).threads[t]? = some ⟨f, x, .done⟩ := by
  obtain ⟨pc, h1, h2⟩ := left_run g pool jobs t f x ok ht sch
  rw [h1]
  have : left ((pool f).val.length + jobs.length) pc = 0 := by omega
  cases pc <;> simp [left] at this ⊢

/-! ## Data races -/

/-- What the log knows: every access is to the goroutine's own variable, and a goroutine that has returned has stored the header. -/
structure LogOK (jobs : List (Nat × α)) (s : Sys α) : Prop where
  same : s.threads.map (fun th => (th.field, th.elem)) = jobs
  own : ∀ a ∈ s.log, ∃ f x, jobs[a.by_]? = some (f, x) ∧ (a.loc = .header f ∨ ∃ arr pos, a.loc = .elem f arr pos)
  stored : ∀ (t : Nat) (th : Thread α), s.threads[t]? = some th → th.pc = .done → ⟨t, true, .header th.field⟩ ∈ s.log

theorem logOK_step (g : Nat → Nat) (jobs : List (Nat × α)) (s : Sys α) (h : LogOK jobs s) (t : Nat) : LogOK jobs (step g s t) := by
  unfold step
  rcases ht : s.threads[t]? with _ | th
  · exact h
  dsimp only
  have hj : jobs[t]? = some (th.field, th.elem) := by rw [← h.same, List.getElem?_map, ht]; rfl
  refine ⟨?_, ?_, ?_⟩
  · rw [List.map_set, ← h.same]
    apply List.ext_getElem?
    intro u
    rw [List.getElem?_set]
    split_ifs with c1 c2
    · subst c1; rw [List.getElem?_map, ht]; rfl
    · subst c1; rw [List.getElem?_eq_none (by simpa using c2)]
    · rfl
  · intro a ha
    rcases List.mem_append.1 ha with ha | ha
    · exact h.own a ha
    · obtain ⟨b, hb, rfl⟩ := List.mem_map.1 ha
      refine ⟨_, _, hj, ?_⟩
      dsimp only
      generalize th.pc = pc at hb
      cases pc with
      | load => simp [pcStep] at hb; subst hb; exact .inl rfl
      | place s' =>
        simp only [pcStep] at hb
        split_ifs at hb
        · simp at hb; subst hb; exact .inr ⟨_, _, rfl⟩
        · simp at hb
      | copy s' acc =>
        simp only [pcStep] at hb
        split_ifs at hb
        · simp at hb; subst hb; exact .inr ⟨_, _, rfl⟩
        · simp at hb
      | store k => simp [pcStep] at hb; subst hb; exact .inl rfl
      | done => simp [pcStep] at hb
  · intro u tu hu hd
    by_cases c : u = t
    · subst c
      rw [List.getElem?_set_self (List.getElem?_eq_some_iff.1 ht).1] at hu
      cases hu
      dsimp only at hd ⊢
      have hst := h.stored u th ht
      generalize th.pc = pc at hd hst ⊢
      cases pc with
      | load => simp [pcStep] at hd
      | place s' => simp only [pcStep] at hd; split_ifs at hd
      | copy s' acc => simp only [pcStep] at hd; split_ifs at hd
      | store k => simp [pcStep]
      | done => exact List.mem_append_left _ (hst rfl)
    · rw [List.getElem?_set_ne (Ne.symm c)] at hu
      exact List.mem_append_left _ (h.stored u tu hu hd)

theorem logOK_run (g : Nat → Nat) (jobs : List (Nat × α)) : ∀ (sch : List Nat) (s : Sys α), LogOK jobs s → LogOK jobs (run g s sch)
  | [], _, h => h
  | t :: sch, s, h => logOK_run g jobs sch _ (logOK_step g jobs s h t)

omit [Inhabited α] in
theorem logOK_start (pool : Nat → Pool α) (jobs : List (Nat × α)) : LogOK jobs (start pool jobs) where
  same := by simp [start, Function.comp_def]
  own := by simp [start]
  stored := by
    intro t th h hd
    simp only [start, List.getElem?_map, Option.map_eq_some_iff] at h
    obtain ⟨j, -, rfl⟩ := h
    cases hd

/-- C105: when all goroutines have returned, there has been a data race when and only when two of them added to the same variable. In particular adding inputs in one goroutine and outputs in another is
free of races. -/
theorem C105_races (g : Nat → Nat) (pool : Nat → Pool α) (jobs : List (Nat × α)) (sch : List Nat) (hf : (run g (start pool jobs) sch).finished) :
    BuildRace (run g (start pool jobs) sch).log ↔ ∃ (t u : Nat) (f : Nat) (x y : α), t ≠ u ∧ jobs[t]? = some (f, x) ∧ jobs[u]? = some (f, y) := by
  have h := logOK_run g jobs sch _ (logOK_start pool jobs)
  constructor
  · rintro ⟨a, ha, b, hb, hne, hloc, -⟩
    obtain ⟨f, x, h1, h2⟩ := h.own a ha
    obtain ⟨f', y, k1, k2⟩ := h.own b hb
    have : f' = f := by
      rw [hloc] at h2
      rcases h2 with h2 | ⟨_, _, h2⟩ <;> rcases k2 with k2 | ⟨_, _, k2⟩ <;> rw [h2] at k2 <;> cases k2 <;> rfl
    subst this
    exact ⟨_, _, _, _, _, hne, h1, k1⟩
  · rintro ⟨t, u, f, x, y, hne, ht, hu⟩
    have get : ∀ (v : Nat) (z : α), jobs[v]? = some (f, z) → ⟨v, true, .header f⟩ ∈ (run g (start pool jobs) sch).log := by
      intro v z hv
      rw [← h.same, List.getElem?_map, Option.map_eq_some_iff] at hv
      obtain ⟨th, k1, k2⟩ := hv
      have := h.stored v th k1 (hf th (List.mem_of_getElem? k1))
      cases k2
      exact this
    exact ⟨_, get t x ht, _, get u y hu, hne, rfl, rfl⟩

/-- C105: with at most one goroutine per variable no schedule has a race, at no moment. -/
theorem C105_race_free (g : Nat → Nat) (pool : Nat → Pool α) (jobs : List (Nat × α))
    (one : ∀ (t u f : Nat) (x y : α), jobs[t]? = some (f, x) → jobs[u]? = some (f, y) → t = u) (sch : List Nat) : ¬ BuildRace (run g (start pool jobs) sch).log := by
  have h := logOK_run g jobs sch _ (logOK_start pool jobs)
  rintro ⟨a, ha, b, hb, hne, hloc, -⟩
  obtain ⟨f, x, h1, h2⟩ := h.own a ha
  obtain ⟨f', y, k1, k2⟩ := h.own b hb
  have : f' = f := by
    rw [hloc] at h2
    rcases h2 with h2 | ⟨_, _, h2⟩ <;> rcases k2 with k2 | ⟨_, _, k2⟩ <;> rw [h2] at k2 <;> cases k2 <;> rfl
  subst this
  exact hne (one _ _ _ _ _ h1 k1)

/-! ## The steps are those of the calls -/

open Verif.Obj in
/-- C105: one goroutine alone does what `append` of the object model (Model/Objects, used by `AddInput`, `AddOutput`, `From` and `PayTo`) does: same arrays, same header. -/
theorem C105_alone (g : Nat → Nat) (σ : Store) (s : RefSlice) (r : Ref) (hl : s.len ≤ s.cap) (hc : s.cap ≤ (σ.arrays.getD s.arr []).length) (N : Nat) (hN : s.len + 4 ≤ N) :
    (run g (start (fun _ => ⟨σ.arrays, s⟩) [(0, r)]) (List.replicate N 0)).pool 0 = ⟨(σ.append g s r).1.arrays, (σ.append g s r).2⟩ := by
  obtain ⟨-, -, st⟩ := solo_load g (s := start (fun _ => ⟨σ.arrays, s⟩) [(0, r)]) (t := 0) (f := 0) (e := r) N rfl ⟨hl, hc⟩ hN
  unfold Store.append
  by_cases c : s.len < s.cap
  · rw [if_pos c]; exact st.inPlace c
  · rw [if_neg c]
    obtain ⟨k, h, rfl⟩ := st.fresh (Nat.le_of_not_lt c)
    exact h

/-! ## Cases -/

/-- `Inputs` (variable 0) holds 10 and 11 in a full array, `Outputs` (variable 1) holds 20 with room for one more. -/
def exPool : Nat → Pool Nat
  | 0 => ⟨[[10, 11]], ⟨0, 2, 2⟩⟩
  | 1 => ⟨[[20, 0]], ⟨0, 1, 2⟩⟩
  | _ => ⟨[], ⟨0, 0, 0⟩⟩

theorem exPool_ok : ∀ f, SliceOK (exPool f)
  | 0 => ⟨by decide, by decide⟩
  | 1 => ⟨by decide, by decide⟩
  | _ + 2 => ⟨Nat.le_refl 0, Nat.le_refl 0⟩

def exAdds : List (Nat × Nat) := [(0, 1), (0, 2), (1, 3), (1, 4)]

/-- The first two goroutines both read the header before either stores: the input 1 is lost; the two outputs are written to the same place of the array. -/
example : let s := run (fun n => n) (start exPool exAdds) [0, 1, 2, 3, 0, 0, 0, 0, 0, 1, 1, 1, 1, 1, 2, 3, 2, 3]
    s.threads.map (·.pc) = [.done, .done, .done, .done] ∧ (s.pool 0).val = [10, 11, 2] ∧ (s.pool 1).val = [20, 4] := by decide +kernel

example : let s := run (fun n => n) (start exPool exAdds) ([0, 1, 2, 3].flatMap fun u => List.replicate 12 u)
    s.threads.map (·.pc) = [.done, .done, .done, .done] ∧ (s.pool 0).val = [10, 11, 1, 2] ∧ (s.pool 1).val = [20, 3, 4] := by decide +kernel

/-- The general theorem applies to them: any of the four elements can be the only one kept of its variable. -/
example : ∃ sch, (run (fun _ => 0) (start exPool exAdds) sch).finished ∧ ((run (fun _ => 0) (start exPool exAdds) sch).pool 0).val = [10, 11, 1] :=
  C105_lost (fun _ => 0) exPool exAdds exPool_ok 0 0 1 rfl

/-- Both kept, in either order. -/
example : ∃ sch, (run (fun _ => 0) (start exPool [(0, 1), (0, 2)]) sch).finished ∧ ∀ f, ((run (fun _ => 0) (start exPool [(0, 1), (0, 2)]) sch).pool f).val =
    if f = 0 then [10, 11, 2, 1] else (exPool f).val := by
  refine (C105_outcomes (fun _ => 0) exPool [(0, 1), (0, 2)] exPool_ok _).2 fun f => ?_
  by_cases h : f = 0
  · subst h
    exact ⟨[1, 0], ⟨by decide, [2, 1], .cons rfl (.cons rfl .nil), rfl⟩, by simp⟩
  · rw [if_neg h]
    exact ⟨[], ⟨by decide, [], .nil, by simp⟩, by simp [Ne.symm h]⟩

/-- Two goroutines, one adding an input and one an output: no race, and once both have returned both elements are there. -/
example (sch : List Nat) (hf : (run (fun n => n) (start exPool [(0, 1), (1, 3)]) sch).finished) :
    ¬ BuildRace (run (fun n => n) (start exPool [(0, 1), (1, 3)]) sch).log ∧ ((run (fun n => n) (start exPool [(0, 1), (1, 3)]) sch).pool 0).val = [10, 11, 1] ∧
      ((run (fun n => n) (start exPool [(0, 1), (1, 3)]) sch).pool 1).val = [20, 3] := by
  have key : ∀ (u f y : Nat), ([(0, 1), (1, 3)] : List (Nat × Nat))[u]? = some (f, y) → u = f := by
    intro u f y h
    match u, h with
    | 0, h => cases h; rfl
    | 1, h => cases h; rfl
    | _ + 2, h => cases h
  exact ⟨C105_race_free _ _ _ (fun t u f x y h k => (key _ _ _ h).trans (key _ _ _ k).symm) _,
    C105_single _ _ _ 0 (exPool_ok 0) 0 1 rfl (fun u y h => key u 0 y h) sch hf, C105_single _ _ _ 1 (exPool_ok 1) 1 3 rfl (fun u y h => key u 1 y h) sch hf⟩

example : BuildRace (run (fun n => n) (start exPool exAdds) ([0, 1, 2, 3].flatMap fun u => List.replicate 12 u)).log :=
  (C105_races _ _ _ _ (fun x hx => by
    have hk : ((run (fun n => n) (start exPool exAdds) ([0, 1, 2, 3].flatMap fun u => List.replicate 12 u)).threads.map (·.pc)).all (· == .done) = true := by decide +kernel
    rw [List.all_eq_true] at hk
    simpa using hk x.pc (List.mem_map_of_mem hx))).2 ⟨0, 1, 0, 1, 2, by decide, rfl, rfl⟩

end Verif.Props
