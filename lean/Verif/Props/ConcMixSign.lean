import Verif.Props.ConcMixTx
/-!
# C123: signing a transaction while others add to it
-/
namespace Verif.Props
open Verif Verif.Spec Verif.Mix
open Verif.Build (Pool Loc Access)
open Verif.Obj (RefSlice)

section
variable {α β : Type} [Inhabited α]

/-- C122: additions cannot overlap if each list is replaced by one goroutine only: one that adds to it, or one that assigns it. -/
theorem C122_one_writer (g : Nat → Nat) (pool : Nat → Pool α) (jobs : List (Nat × α)) (calls : List (Prog α β)) (h1 : ∀ f t u, Replaces jobs calls f t → Replaces jobs calls f u → t = u) (sch : List Nat) :
    NoOverlap g (Mix.start pool jobs calls) sch := by
  intro p q _ f t u ht hu
  have I := mixLog_run g p (mixLog_start pool jobs calls)
  generalize Mix.run g (Mix.start pool jobs calls) p = s at *
  have tl : s.app.threads.length = jobs.length := by simpa using congrArg List.length I.same
  have key : ∀ t, Replacing s f t → Replaces jobs calls f t := by
    rintro t (⟨th, h1, rfl, -⟩ | ⟨i, hs, k, rfl, h1, h2⟩)
    · left
      refine ⟨th.elem, ?_⟩
      have := congrArg (·[t]?) I.same
      simpa [h1] using this.symm
    · right
      obtain ⟨p0, hp0, -, ha, -⟩ := I.calls i _ h1
      exact ⟨i, p0, by rw [tl], hp0, ha f (.inl h2)⟩
  exact h1 f t u (key t ht) (key u hu)

/-! ## Calls that end with the assignment -/

/-- Every path through the call that returns an `r` with `Q r` ends with the assignment of `fs`. -/
inductive EndsAssigning (fs : List Nat) (Q : β → Prop) : Prog α β → Prop
  | ret {r : β} : ¬ Q r → EndsAssigning fs Q (.ret r)
  | panic : EndsAssigning fs Q .panic
  | assign {r : β} : EndsAssigning fs Q (.assign fs (.ret r))
  | count {f : Nat} {k : Nat → Prog α β} : (∀ n, EndsAssigning fs Q (k n)) → EndsAssigning fs Q (.count f k)
  | elem {f i : Nat} {k : α → Prog α β} : (∀ x, EndsAssigning fs Q (k x)) → EndsAssigning fs Q (.elem f i k)
  | range {f : Nat} {k : List α → Prog α β} : (∀ l, EndsAssigning fs Q (k l)) → EndsAssigning fs Q (.range f k)

theorem reach_assign (g : Nat → Nat) {i : Nat} {fs : List Nat} {Q : β → Prop} {p : Prog α β} (he : EndsAssigning fs Q p) {r : β} (hr : Q r) : ∀ {s : Mix.Sys α β}, s.crashed = false → (∀ f, SliceOK (s.app.pool f)) →
    s.calls[i]? = some (.at_ p) → alone s.val p = .ok r →
    ∃ N s1, Mix.run g s (List.replicate N (s.app.threads.length + i)) = s1 ∧ s1.crashed = false ∧ s1.app.pool = s.app.pool ∧ s1.app.threads = s.app.threads ∧ s1.calls[i]? = some (.at_ (.assign fs (.ret r))) := by
  -- from here on in the state `s1`
  have next : ∀ {s s1 : Mix.Sys α β} {M : Nat}, Mix.run g s (List.replicate M (s.app.threads.length + i)) = s1 → s1.app.pool = s.app.pool → s1.app.threads = s.app.threads →
      (∃ N s2, Mix.run g s1 (List.replicate N (s1.app.threads.length + i)) = s2 ∧ s2.crashed = false ∧ s2.app.pool = s1.app.pool ∧ s2.app.threads = s1.app.threads ∧ s2.calls[i]? = some (.at_ (.assign fs (.ret r)))) →
      ∃ N s2, Mix.run g s (List.replicate N (s.app.threads.length + i)) = s2 ∧ s2.crashed = false ∧ s2.app.pool = s.app.pool ∧ s2.app.threads = s.app.threads ∧ s2.calls[i]? = some (.at_ (.assign fs (.ret r))) := by
    rintro s s1 M h1 h2 h3 ⟨N, s2, k1, k2, k3, k4, k5⟩
    refine ⟨M + N, s2, ?_, k2, k3.trans h2, k4.trans h3, k5⟩
    rw [List.replicate_add, Mix.run_append, h1, ← h3, k1]
  induction he with
  | ret h =>
    intro s _ _ _ ha
    rw [alone] at ha
    cases ha
    exact absurd hr h
  | panic => intro s _ _ _ ha; cases ha
  | assign =>
    intro s hc _ h ha
    simp only [alone] at ha
    cases ha
    exact ⟨0, s, rfl, hc, rfl, rfl, h⟩
  | @count f k _ ih =>
    intro s hc ok h ha
    obtain ⟨k1, k2, k3, k4⟩ := (step_call g hc h).2 _ _ _ rfl
    have ev : (Mix.step g s (s.app.threads.length + i)).val = s.val := by funext x; unfold Mix.Sys.val; rw [k2]
    rw [alone_count, show (s.val f).length = (s.app.pool f).hdr.len from Fits.length (ok f)] at ha
    exact next (s1 := Mix.step g s (s.app.threads.length + i)) (M := 1) rfl k2 k3 (ih _ k1 (by rw [k2]; exact ok) k4 (by rw [ev]; exact ha))
  | @elem f j k _ ih =>
    intro s hc ok h ha
    have hlen : (s.val f).length = (s.app.pool f).hdr.len := Fits.length (ok f)
    by_cases c : j < (s.app.pool f).hdr.len
    · obtain ⟨k1, k2, k3, k4⟩ := (step_call g hc h).2 _ _ _ (by unfold Mix.rstep; dsimp only; rw [if_pos c])
      obtain ⟨j1, j2, j3, j4⟩ := (step_call g k1 k4).2 _ _ _ rfl
      rw [k3] at j1 j2 j3 j4
      have e2 : (Mix.step g (Mix.step g s (s.app.threads.length + i)) (s.app.threads.length + i)).app.pool = s.app.pool := j2.trans k2
      have ev : (Mix.step g (Mix.step g s (s.app.threads.length + i)) (s.app.threads.length + i)).val = s.val := by funext x; unfold Mix.Sys.val; rw [e2]
      have hx : (s.val f)[j]? = some (((s.app.pool f).arrays.getD (s.app.pool f).hdr.arr []).getD j default) := Fits.get (ok f) c
      rw [alone_elem hx] at ha
      exact next (s1 := Mix.step g (Mix.step g s (s.app.threads.length + i)) (s.app.threads.length + i)) (M := 2) rfl e2 j3 (ih _ j1 (by rw [e2]; exact ok) (by rw [j4, k2]) (by rw [ev]; exact ha))
    · rw [alone, List.getElem?_eq_none (by rw [hlen]; omega)] at ha
      cases ha
  | @range f k _ ih =>
    intro s hc ok h ha
    obtain ⟨k1, k2, k3, k4⟩ := (step_call g hc h).2 _ _ _ rfl
    obtain ⟨s1, e1, j1, j2, j3, j4⟩ := solo_walk g (s.app.pool f).hdr.len (s := Mix.step g s (s.app.threads.length + i)) k1 (by rw [k2]; exact ok f) k4 (by simp) (by simp)
    rw [k3] at e1 j3
    rw [k2] at j2 j4
    have ev : s1.val = s.val := by funext x; unfold Mix.Sys.val; rw [j2]
    refine next (M := (s.app.pool f).hdr.len + 1 + 1) ?_ j2 j3 (ih _ j1 (by rw [j2]; exact ok) j4 (by rw [ev]; rw [alone_range] at ha; exact ha))
    rw [run_replicate_succ, e1]

/-- Goroutines that add, one after the other, do not change what an older header shows. -/
theorem adders_run (g : Nat → Nat) : ∀ (us : List Nat) (s : Build.Sys α), us.Nodup → (∀ f, SliceOK (s.pool f)) → (∀ u ∈ us, ∃ f x, s.threads[u]? = some ⟨f, x, .load⟩) →
    ∃ sch, (∀ t ∈ sch, t ∈ us) ∧ let s' := Build.run g s sch
      (∀ u ∈ us, ∃ th, s'.threads[u]? = some th ∧ th.pc = .done) ∧ (∀ u, u ∉ us → s'.threads[u]? = s.threads[u]?) ∧ s'.threads.length = s.threads.length ∧
      ∀ f (k : RefSlice), k.len ≤ (s.pool f).hdr.len → Fits (s.pool f) k → (s'.pool f).elems k = (s.pool f).elems k
  | [], s, _, _, _ => ⟨[], by simp, by simp [Build.run], by simp [Build.run], rfl, fun _ _ _ _ => rfl⟩
  | u :: us, s, nd, ok, hth => by
    obtain ⟨hu, nd⟩ := List.nodup_cons.1 nd
    obtain ⟨fu, x, ht⟩ := hth u (by simp)
    obtain ⟨r1, d1, st⟩ := Build.solo_load g _ ht (ok fu) (Nat.le_refl _)
    generalize hs1 : List.replicate ((s.pool fu).hdr.len + 4) u = sch1 at *
    have hm : ∀ t ∈ sch1, t = u := by rw [← hs1]; exact fun t ht => List.eq_of_mem_replicate ht
    obtain ⟨sch, h1, h2, h3, h4, h5⟩ := adders_run g us (Build.run g s sch1) nd (fun f' => by
        by_cases h : f' = fu
        · subst h; exact st.ok
        · rw [r1.pool f' h]; exact ok f') (fun v hv => by
        rw [r1.threads v (fun c => hu (c ▸ hv))]; exact hth v (by simp [hv]))
    have hlen : ((Build.run g s sch1).pool fu).hdr.len = (s.pool fu).hdr.len + 1 := by
      rw [← Fits.length (P := (Build.run g s sch1).pool fu) st.ok, ← Fits.length (P := s.pool fu) (ok fu)]
      have := congrArg List.length st.val
      rw [List.length_append] at this
      exact this
    refine ⟨sch1 ++ sch, ?_, ?_⟩
    · intro t ht
      rcases List.mem_append.1 ht with ht | ht
      · rw [hm t ht]; simp
      · exact List.mem_cons_of_mem _ (h1 t ht)
    rw [Build.run_append]
    refine ⟨?_, ?_, h4.trans r1.len, ?_⟩
    · intro v hv
      rcases List.mem_cons.1 hv with rfl | hv
      · rw [h3 _ hu]; exact ⟨_, d1, rfl⟩
      · exact h2 v hv
    · intro v hv
      rw [h3 v (fun c => hv (by simp [c])), r1.threads v (fun c => hv (by simp [c]))]
    · intro f k hk hf
      by_cases h : f = fu
      · subst h
        obtain ⟨o1, o2⟩ := st.old k hk hf.1 hf.2
        rw [h5 f k (by omega) ⟨hf.1, o2⟩, o1]
      · have e := r1.pool f h
        rw [h5 f k (by rw [e]; exact hk) (by rw [e]; exact hf), e]

/-- While the goroutines that add make their steps. -/
theorem run_adders (g : Nat → Nat) : ∀ (sch : List Nat) (s : Mix.Sys α β), s.crashed = false → (∀ t ∈ sch, t < s.app.threads.length) → Mix.run g s sch = { s with app := Build.run g s.app sch }
  | [], s, _, _ => rfl
  | t :: sch, s, hc, ht => by
    have e : Mix.step g s t = { s with app := Build.step g s.app t } := by
      unfold Mix.step
      rw [if_neg (by simp [hc]), if_pos (ht t (by simp))]
    have hl : (Build.step g s.app t).threads.length = s.app.threads.length := by
      unfold Build.step
      split
      · rfl
      · simp
    show Mix.run g (Mix.step g s t) sch = _
    rw [e, run_adders g sch { s with app := Build.step g s.app t } hc (fun u hu => by dsimp only; rw [hl]; exact ht u (by simp [hu]))]
    rfl

/-- What is added between the two halves of the assignment is lost. -/
theorem assign_loses (g : Nat → Nat) {s : Mix.Sys α β} (hc : s.crashed = false) (ok : ∀ f, SliceOK (s.app.pool f)) {i : Nat} {fs : List Nat} {r : β} (h : s.calls[i]? = some (.at_ (.assign fs (.ret r))))
    (us : List Nat) (nd : us.Nodup) (hth : ∀ u ∈ us, ∃ f x, s.app.threads[u]? = some ⟨f, x, .load⟩) :
    ∃ sch, let s' := Mix.run g s sch
      s'.crashed = false ∧ (∀ u ∈ us, Added s' u) ∧ HasReturned s' i r ∧ ∀ f ∈ fs, s'.val f = s.val f := by
  obtain ⟨k1, k2, k3, k4⟩ := (step_call g hc h).2 _ _ _ rfl
  generalize hs1 : Mix.step g s (s.app.threads.length + i) = s1 at *
  obtain ⟨sch, h1, h2, -, h4, h5⟩ := adders_run g us s1.app nd (by rw [k2]; exact ok) (by rw [k3]; exact hth)
  have hlt : ∀ t ∈ sch, t < s1.app.threads.length := by
    intro t ht
    obtain ⟨f, x, e⟩ := hth t (h1 t ht)
    rw [k3]
    exact (List.getElem?_eq_some_iff.1 e).1
  have e2 := run_adders g sch s1 k1 hlt
  obtain ⟨j1, j2, j3, j4⟩ := (step_call g (s := { s1 with app := Build.run g s1.app sch }) k1 k4).2 _ _ _ rfl
  refine ⟨(s.app.threads.length + i) :: (sch ++ [s.app.threads.length + i]), ?_⟩
  have er : Mix.run g s ((s.app.threads.length + i) :: (sch ++ [s.app.threads.length + i])) = Mix.step g { s1 with app := Build.run g s1.app sch } ((Build.run g s1.app sch).threads.length + i) := by
    show Mix.run g (Mix.step g s (s.app.threads.length + i)) (sch ++ [s.app.threads.length + i]) = _
    rw [hs1, Mix.run_append, e2, h4, k3]
    rfl
  rw [er]
  refine ⟨j1, ?_, j4, ?_⟩
  · intro u hu
    unfold Added
    rw [j3]
    exact h2 u hu
  · intro f hf
    unfold Mix.Sys.val
    rw [j2]
    have hl : (fs.map fun f => (f, (s.app.pool f).hdr)).lookup f = some (s.app.pool f).hdr := by
      clear * - hf
      induction fs with
      | nil => cases hf
      | cons a fs ih =>
        rw [List.map_cons, List.lookup_cons]
        by_cases c : f = a
        · subst c; simp
        · rw [beq_false_of_ne c]
          exact ih ((List.mem_cons.1 hf).resolve_left c)
    unfold Mix.restore
    rw [hl]
    have := h5 f (s.app.pool f).hdr (by rw [k2]) (by rw [k2]; exact ok f)
    rw [k2] at this
    exact this

end

/-! ## The transaction's own `Sign` and `SignAuto` -/

theorem ends_outp (Q : Got → Prop) (H : HashFns) (i : UInt32) (flag : UInt8) (k : Bytes → Prog Elem Got) (hk : ∀ h, EndsAssigning [0, 1] Q (k h)) : EndsAssigning [0, 1] Q (outp H i flag k) := by
  have ho : ∀ n, EndsAssigning [0, 1] Q (outputsHash H n k) := by
    intro n
    unfold outputsHash
    split_ifs
    · exact .range fun _ => hk _
    · exact .panic
    · refine .elem fun x => ?_
      cases x with
      | inl i => exact .panic
      | inr o => exact hk _
  unfold outp
  split_ifs
  · exact ho _
  · refine .count fun n => ?_
    split_ifs
    · exact ho _
    · exact hk _
  · exact hk _

theorem ends_sigHash (Q : Got → Prop) (H : HashFns) (version locktime i : UInt32) (flag : UInt8) (k : Got → Prog Elem Got) (hk : ∀ d, EndsAssigning [0, 1] Q (k (.bytes d)))
    (he : ∀ e, EndsAssigning [0, 1] Q (k (.error e))) : EndsAssigning [0, 1] Q (sigHash H version locktime i flag k) := by
  rw [sigHash_def]
  refine .elem fun x => ?_
  cases x with
  | inr o => exact .panic
  | inl inp =>
    dsimp only
    split_ifs
    · exact he _
    rcases inp.PreviousTxScript with _ | ps
    · exact he _
    dsimp only
    unfold inpp
    dsimp only
    split_ifs
    · exact .range fun _ => .range fun _ => ends_outp Q H i flag _ fun _ => hk _
    · exact .range fun _ => ends_outp Q H i flag _ fun _ => hk _
    · exact .range fun _ => ends_outp Q H i flag _ fun _ => hk _
    · exact ends_outp Q H i flag _ fun _ => hk _

/-- The call has signed. -/
def HasSigned : Got → Prop
  | .bytes _ => True
  | .signed _ => True
  | _ => False

theorem ends_assigning (H : HashFns) (tx : Transaction) (c : OnTx) (hc : c.Assigns) : EndsAssigning [0, 1] HasSigned (c.prog H tx) := by
  cases c with
  | sign method idx flag =>
    cases (hc : method = true)
    unfold OnTx.prog Mix.sign
    exact ends_sigHash _ _ _ _ _ _ _ (fun d => .elem fun _ => .elem fun _ => .assign) fun e => .ret (fun h => h)
  | signAuto method mine flag =>
    cases (hc : method = true)
    unfold OnTx.prog Mix.signAuto
    refine .range fun l => ?_
    suffices loop : ∀ (is : List Input) (i : Nat) (acc : List (Nat × Bytes)), EndsAssigning [0, 1] HasSigned
        (Mix.signAutoLoop H tx.Version tx.Locktime mine flag (fun acc => if true = true then .assign [0, 1] (.ret (.signed acc)) else .ret (.signed acc)) i is acc) from loop _ _ _
    intro is
    induction is with
    | nil => intro i acc; exact .assign
    | cons inp rest ih =>
      intro i acc
      unfold Mix.signAutoLoop
      have go : ∀ h : Bytes, EndsAssigning [0, 1] HasSigned (
          if hexEncode h = hexEncode mine then
            sigHash H tx.Version tx.Locktime (UInt32.ofNat i) flag fun r => match r with
              | .bytes d => .elem 0 (UInt32.ofNat i).toNat fun _ => .elem 0 (UInt32.ofNat i).toNat fun _ =>
                  Mix.signAutoLoop H tx.Version tx.Locktime mine flag (fun acc => if true = true then .assign [0, 1] (.ret (.signed acc)) else .ret (.signed acc)) (i + 1) rest (acc ++ [((UInt32.ofNat i).toNat, d)])
              | _ => Mix.signAutoLoop H tx.Version tx.Locktime mine flag (fun acc => if true = true then .assign [0, 1] (.ret (.signed acc)) else .ret (.signed acc)) (i + 1) rest acc
          else Mix.signAutoLoop H tx.Version tx.Locktime mine flag (fun acc => if true = true then .assign [0, 1] (.ret (.signed acc)) else .ret (.signed acc)) (i + 1) rest acc) := by
        intro h
        by_cases c : hexEncode h = hexEncode mine
        · rw [if_pos c]
          exact ends_sigHash _ _ _ _ _ _ _ (fun d => .elem fun _ => .elem fun _ => ih _ _) fun e => ih _ _
        · rw [if_neg c]; exact ih _ _
      rcases GetPublicKeyHash inp.PreviousTxScript with h | e | _
      · exact go h
      · exact go []
      · exact .panic
  | _ => cases hc

/-- C123: everything that other goroutines add while the transaction's own `Sign` or `SignAuto` is at work can be lost. For every transaction, all goroutines that add inputs and outputs and every such call that has nothing to complain of,
there is a schedule after which all of them have returned, as they should, and the transaction has the inputs and outputs that it had at the start. -/
theorem C123_lost (H : HashFns) (g : Nat → Nat) {tx : Transaction} {pool : Nat → Pool Elem} (hp : HoldsTx pool tx) (es : List Elem) (c : OnTx) (hc : c.Assigns) (r : Got) (hr : alone (txVal tx) (c.prog H tx) = .ok r)
    (hne : (∃ d, r = .bytes d) ∨ ∃ l, r = .signed l) :
    ∃ sch, let s := Mix.run g (Mix.start pool (adds es) [c.prog H tx]) sch
      s.crashed = false ∧ (∀ t, t < es.length → Added s t) ∧ HasReturned s 0 r ∧ now tx s = tx := by
  have hQ : HasSigned r := by rcases hne with ⟨d, rfl⟩ | ⟨l, rfl⟩ <;> trivial
  have hv : (Mix.start pool (adds es) [c.prog H tx]).val = txVal tx := funext fun f => (hp f).2
  obtain ⟨N, s1, h1, h2, h3, h4, h5⟩ := reach_assign g (ends_assigning H tx c hc) hQ (s := Mix.start pool (adds es) [c.prog H tx]) (i := 0) rfl (fun f => (hp f).1) rfl (by rw [hv]; exact hr)
  obtain ⟨sch, k1, k2, k3, k4⟩ := assign_loses g h2 (by rw [h3]; exact fun f => (hp f).1) h5 (List.range es.length) List.nodup_range (by
    intro u hu
    rw [h4]
    have hu : u < es.length := by simpa using hu
    simp only [Mix.start, Build.start, adds, List.map_map, List.getElem?_map, List.getElem?_eq_getElem hu, Option.map_some, Function.comp_apply]
    exact ⟨_, _, rfl⟩)
  refine ⟨List.replicate N ((Mix.start pool (adds es) [c.prog H tx]).app.threads.length + 0) ++ sch, ?_⟩
  rw [Mix.run_append, h1]
  refine ⟨k1, fun t ht => k2 t (by simpa using ht), k3, ?_⟩
  have hs1 : ∀ f, s1.val f = txVal tx f := by
    intro f
    unfold Mix.Sys.val
    rw [h3]
    exact (hp f).2
  unfold now
  rw [k4 0 (by simp), k4 1 (by simp), hs1, hs1, show ins (txVal tx 0) = tx.Inputs from ins_map _, show outs (txVal tx 1) = tx.Outputs from outs_map _]

/-! ## What is signed -/

section
variable {α β : Type}

/-- First `p`, then `k` with its result. -/
def followed (p : Prog α β) (k : β → Prog α β) : Prog α β := match p with
  | .ret r => k r
  | .panic => .panic
  | .count f c => .count f fun n => followed (c n) k
  | .elem f i c => .elem f i fun x => followed (c x) k
  | .range f c => .range f fun l => followed (c l) k
  | .assign fs c => .assign fs (followed c k)

theorem finds_followed {P : Nat → Nat → List α → Prop} {k : β → Prog α β} {r : β} : ∀ (p : Prog α β) {n : Nat}, Finds P n (followed p k) (.ok r) → ∃ r' n', n ≤ n' ∧ Finds P n p (.ok r') ∧ Finds P n' (k r') (.ok r) := by
  intro p
  induction p with
  | ret r0 => intro n h; exact ⟨r0, n, Nat.le_refl _, .ret, h⟩
  | panic => intro n h; cases h
  | count f c ih =>
    intro n h
    unfold followed at h
    cases h with
    | count h1 h2 h3 => obtain ⟨r', n', k1, k2, k3⟩ := ih _ h3; exact ⟨r', n', by omega, .count h1 h2 k2, k3⟩
  | elem f i c ih =>
    intro n h
    unfold followed at h
    cases h with
    | elem h1 h2 h3 h4 => obtain ⟨r', n', k1, k2, k3⟩ := ih _ h4; exact ⟨r', n', by omega, .elem h1 h2 h3 k2, k3⟩
  | range f c ih =>
    intro n h
    unfold followed at h
    cases h with
    | range h1 h2 h3 => obtain ⟨r', n', k1, k2, k3⟩ := ih _ h3; exact ⟨r', n', by omega, .range h1 h2 k2, k3⟩
  | assign fs c ih =>
    intro n h
    unfold followed at h
    cases h with
    | assign h1 => obtain ⟨r', n', k1, k2, k3⟩ := ih h1; exact ⟨r', n', k1, .assign k2, k3⟩
end

theorem outp_followed (H : HashFns) (i : UInt32) (flag : UInt8) (c : Bytes → Prog Elem Got) (k : Got → Prog Elem Got) : followed (outp H i flag c) k = outp H i flag fun h => followed (c h) k := by
  have ho : ∀ n, followed (outputsHash H n c) k = outputsHash H n fun h => followed (c h) k := by
    intro n
    unfold outputsHash
    split_ifs
    · rfl
    · rfl
    · simp only [followed]
      congr 1
      funext x
      cases x <;> rfl
  unfold outp
  split_ifs
  · exact ho _
  · simp only [followed]
    congr 1
    funext m
    split_ifs
    · exact ho _
    · rfl
  · rfl

theorem sigHash_followed (H : HashFns) (version locktime i : UInt32) (flag : UInt8) (k : Got → Prog Elem Got) : sigHash H version locktime i flag k = followed (sigHash H version locktime i flag .ret) k := by
  rw [sigHash_def, sigHash_def, followed]
  congr 1
  funext x
  cases x with
  | inr o => rfl
  | inl inp =>
    dsimp only
    split_ifs
    · rfl
    rcases inp.PreviousTxScript with _ | ps
    · rfl
    dsimp only
    unfold inpp
    dsimp only
    split_ifs
    · simp only [followed, outp_followed]
    · simp only [followed, outp_followed]
    · simp only [followed, outp_followed]
    · simp only [followed, outp_followed]

/-- What the loop of `SignAuto` signs. -/
def LoopSigns (N : Nat) (v : Nat → Nat → List Elem) (r : Got) (H : HashFns) (version locktime : UInt32) (mine : Bytes) (flag : UInt8) (kf : List (Nat × Bytes) → Prog Elem Got) (i : Nat) (rest : List Input) (acc : List (Nat × Bytes)) : Prop :=
    ∃ more n', Finds (FindsAt N v) n' (kf (acc ++ more)) (.ok r) ∧
      (∀ p ∈ more, ∃ j inp, rest[j]? = some inp ∧ p.1 = i + j ∧ GetPublicKeyHash inp.PreviousTxScript = .ok mine ∧
        ∃ m, m < N ∧ alone (v m) (sigHash H version locktime (UInt32.ofNat p.1) flag .ret) = .ok (.bytes p.2)) ∧
      (∀ j inp, rest[j]? = some inp → GetPublicKeyHash inp.PreviousTxScript = .ok mine → (∃ d, (i + j, d) ∈ more) ∨
        ∃ m r', m < N ∧ alone (v m) (sigHash H version locktime (UInt32.ofNat (i + j)) flag .ret) = .ok r' ∧ ∀ d, r' ≠ .bytes d)

/-- The loop of `SignAuto`. -/
theorem loop_finds {N : Nat} {v : Nat → Nat → List Elem} {r : Got} (gr : ∀ f n m, n ≤ m → v n f <+: v m f) (H : HashFns) (version locktime : UInt32) {mine : Bytes} (hm : mine ≠ []) (flag : UInt8)
    (hc : flag &&& sighash.AnyOneCanPay ≠ 0 ∨ flag &&& 31 = sighash.None ∨ (∀ j, v j 0 = v 0 0) ∨ (flag &&& 31 = sighash.Single ∧ ∀ j, v j 1 = v 0 1)) (kf : List (Nat × Bytes) → Prog Elem Got) :
    ∀ (rest : List Input) (i : Nat) (acc : List (Nat × Bytes)) {n : Nat}, i + rest.length ≤ 2 ^ 31 → Finds (FindsAt N v) n (Mix.signAutoLoop H version locktime mine flag kf i rest acc) (.ok r) →
    LoopSigns N v r H version locktime mine flag kf i rest acc := by
  intro rest
  induction rest with
  | nil =>
    intro i acc n _ h
    exact ⟨[], n, by simpa [Mix.signAutoLoop] using h, by simp, by simp⟩
  | cons inp rest ih =>
    intro i acc n hl h
    rw [List.length_cons] at hl
    -- the input is not signed
    have skip : ∀ {n' : Nat}, Finds (FindsAt N v) n' (Mix.signAutoLoop H version locktime mine flag kf (i + 1) rest acc) (.ok r) →
        (GetPublicKeyHash inp.PreviousTxScript = .ok mine → ∃ m r', m < N ∧ alone (v m) (sigHash H version locktime (UInt32.ofNat i) flag .ret) = .ok r' ∧ ∀ d, r' ≠ .bytes d) → LoopSigns N v r H version locktime mine flag kf i (inp :: rest) acc := by
      intro n' h' hno
      obtain ⟨more, n2, k1, k2, k3⟩ := ih (i + 1) acc (by omega) h'
      refine ⟨more, n2, k1, ?_, ?_⟩
      · intro p hp
        obtain ⟨j, inp', e1, e2, e3⟩ := k2 p hp
        exact ⟨j + 1, inp', e1, by omega, e3⟩
      · intro j inp' hj hp
        cases j with
        | zero => cases hj; exact .inr (hno hp)
        | succ j =>
          rw [List.getElem?_cons_succ] at hj
          have := k3 j inp' hj hp
          rw [show i + 1 + j = i + (j + 1) by omega] at this
          exact this
    unfold Mix.signAutoLoop at h
    rcases hg : GetPublicKeyHash inp.PreviousTxScript with pkh | e | _
    · rw [hg] at h skip
      dsimp only at h
      by_cases c : hexEncode pkh = hexEncode mine
      · rw [if_pos c, sigHash_followed] at h
        obtain ⟨r', n1, -, h1, h2⟩ := finds_followed _ h
        have hi : (UInt32.ofNat i).toNat = i := by rw [UInt32.toNat_ofNat']; omega
        obtain ⟨m, hmN, ha⟩ := digest_finds gr H version locktime (i := UInt32.ofNat i) (by rw [hi]; omega) flag hc h1
        cases hexEncode_inj c
        cases r' with
        | bytes d =>
          dsimp only at h2
          obtain ⟨j1, x1, -, -, -, h2⟩ := elem_finds h2
          obtain ⟨j2, x2, -, -, -, h2⟩ := elem_finds h2
          obtain ⟨more, n2, k1, k2, k3⟩ := ih (i + 1) _ (by omega) h2
          rw [hi] at k1
          refine ⟨(i, d) :: more, n2, by simpa using k1, ?_, ?_⟩
          · intro p hp
            rcases List.mem_cons.1 hp with rfl | hp
            · exact ⟨0, inp, rfl, rfl, hg, m, hmN, ha⟩
            · obtain ⟨j, inp', e1, e2, e3⟩ := k2 p hp
              exact ⟨j + 1, inp', e1, by omega, e3⟩
          · intro j inp' hj hp
            cases j with
            | zero => exact .inl ⟨d, by simp⟩
            | succ j =>
              rw [List.getElem?_cons_succ] at hj
              have := k3 j inp' hj hp
              rw [show i + 1 + j = i + (j + 1) by omega] at this
              rcases this with ⟨d', h⟩ | h
              · exact .inl ⟨d', List.mem_cons_of_mem _ h⟩
              · exact .inr h
        | error e => exact skip h2 fun _ => ⟨m, _, hmN, ha, by simp⟩
        | bool b => exact skip h2 fun _ => ⟨m, _, hmN, ha, by simp⟩
        | number b => exact skip h2 fun _ => ⟨m, _, hmN, ha, by simp⟩
        | signed b => exact skip h2 fun _ => ⟨m, _, hmN, ha, by simp⟩
      · rw [if_neg c] at h
        exact skip h fun e => by cases e; exact absurd rfl c
    · rw [hg] at h skip
      dsimp only at h
      by_cases c : hexEncode ([] : Bytes) = hexEncode mine
      · exact absurd (hexEncode_inj c).symm hm
      · rw [if_neg c] at h
        exact skip h fun e => by cases e
    · rw [hg] at h
      exact (panic_finds h).elim

section
variable (H : HashFns) (g : Nat → Nat) {tx : Transaction} {pool : Nat → Pool Elem} (hp : HoldsTx pool tx) (es : List Elem) (calls : List (Prog Elem Got)) {sch : List Nat}
  (ho : NoOverlap g (Mix.start pool (adds es) calls) sch)
include hp ho

/-- C123: what `Sign` signs (of the signer or of the transaction) is the digest of the transaction as it is at one moment, under the same conditions as in C122. -/
theorem C123_sign {i : Nat} {method : Bool} {idx : UInt32} (hi : idx.toNat < 2 ^ 31) {flag : UInt8} {r : Got} (hc : calls[i]? = some ((OnTx.sign method idx flag).prog H tx))
    (hf : OneMoment flag es) (h : HasReturned (Mix.run g (Mix.start pool (adds es) calls) sch) i r) :
    ∃ n, n < sch.length ∧ asGot ((now tx (Mix.run g (Mix.start pool (adds es) calls) (sch.take n))).GetInputSignatureHash H idx flag) = .ok r := by
  have k := tx_finds g hp es calls ho hc h
  unfold OnTx.prog Mix.sign at k
  dsimp only at k
  rw [sigHash_followed] at k
  obtain ⟨r', n1, -, h1, h2⟩ := finds_followed _ k
  obtain ⟨j, hN, ha⟩ := digest_finds (tx_grows g hp es calls ho) H tx.Version tx.Locktime hi flag (one_moment g hp es calls hf) h1
  have hr : r' = r := by
    cases r' with
    | bytes d =>
      dsimp only at h2
      obtain ⟨j1, x1, -, -, -, h2⟩ := elem_finds h2
      obtain ⟨j2, x2, -, -, -, h2⟩ := elem_finds h2
      cases method with
      | false => exact (ret_finds h2).symm
      | true => cases h2 with | assign h2 => exact (ret_finds h2).symm
    | error e => exact (ret_finds h2).symm
    | bool b => exact (ret_finds h2).symm
    | number b => exact (ret_finds h2).symm
    | signed b => exact (ret_finds h2).symm
  rw [hr] at ha
  refine ⟨j, hN, ?_⟩
  rw [(C122_now g hp es calls (sch.take j)).1] at ha
  exact (C122_digest_alone H (now tx (Mix.run g (Mix.start pool (adds es) calls) (sch.take j))) idx flag).symm.trans ha

/-- C123: `SignAuto` signs the inputs that pay to the signer's key at one moment (when it begins its loop), each with the digest of a moment; it passes over such an input only if the digest is an error. -/
theorem C123_signAuto {i : Nat} {method : Bool} {mine : Bytes} (hm : mine ≠ []) {flag : UInt8} {r : Got} (hl : tx.Inputs.length + es.length ≤ 2 ^ 31) (hc : calls[i]? = some ((OnTx.signAuto method mine flag).prog H tx))
    (hf : OneMoment flag es) (h : HasReturned (Mix.run g (Mix.start pool (adds es) calls) sch) i r) :
    ∃ l n0, r = .signed l ∧ n0 < sch.length ∧
      let moment := fun n => now tx (Mix.run g (Mix.start pool (adds es) calls) (sch.take n))
      (∀ p ∈ l, ∃ inp, (moment n0).Inputs[p.1]? = some inp ∧ GetPublicKeyHash inp.PreviousTxScript = .ok mine ∧ ∃ n, n < sch.length ∧ (moment n).GetInputSignatureHash H (UInt32.ofNat p.1) flag = .ok p.2) ∧
      (∀ j inp, (moment n0).Inputs[j]? = some inp → GetPublicKeyHash inp.PreviousTxScript = .ok mine → (∃ d, (j, d) ∈ l) ∨
        ∃ n e, n < sch.length ∧ (moment n).GetInputSignatureHash H (UInt32.ofNat j) flag = .err e) := by
  have hv := fun n => (C122_now g hp es calls (sch.take n)).1
  have k := tx_finds g hp es calls ho hc h
  unfold OnTx.prog Mix.signAuto at k
  obtain ⟨n0, -, hN0, k⟩ := range_finds k
  have hlen : (ins ((Mix.run g (Mix.start pool (adds es) calls) (sch.take n0)).val 0)).length ≤ 2 ^ 31 := by
    obtain ⟨ts, nd, xs, had, e⟩ := tx_outcome g hp es calls (sch.take n0) 0
    have h1 : xs.length = ts.length := had.length_eq.symm
    have h2 : ts.length ≤ es.length := by
      have := (nd.subperm (l₂ := List.range es.length) (fun t ht => by
        obtain ⟨x, hx⟩ := addedBy_mem had t ht
        have := (List.getElem?_eq_some_iff.1 hx).1
        simpa [adds] using this)).length_le
      simpa using this
    have h3 : (ins ((Mix.run g (Mix.start pool (adds es) calls) (sch.take n0)).val 0)).length ≤ ((Mix.run g (Mix.start pool (adds es) calls) (sch.take n0)).val 0).length := List.length_filterMap_le _ _
    have h4 := congrArg List.length e
    rw [List.length_append, show (txVal tx 0).length = tx.Inputs.length from List.length_map _] at h4
    omega
  obtain ⟨l, n', k1, k2, k3⟩ := loop_finds (tx_grows g hp es calls ho) H tx.Version tx.Locktime hm flag (one_moment g hp es calls hf) _ _ 0 [] (by simpa using hlen) k
  have fin' : ∀ (m : Nat) (idx : UInt32), alone (Mix.run g (Mix.start pool (adds es) calls) (sch.take m)).val (sigHash H tx.Version tx.Locktime idx flag .ret) =
      asGot ((now tx (Mix.run g (Mix.start pool (adds es) calls) (sch.take m))).GetInputSignatureHash H idx flag) := by
    intro m idx
    conv_lhs => rw [hv m]
    exact C122_digest_alone H (now tx (Mix.run g (Mix.start pool (adds es) calls) (sch.take m))) idx flag
  have fin : ∀ (m : Nat) (idx : UInt32) (d : Bytes), alone (Mix.run g (Mix.start pool (adds es) calls) (sch.take m)).val (sigHash H tx.Version tx.Locktime idx flag .ret) = .ok (.bytes d) →
      (now tx (Mix.run g (Mix.start pool (adds es) calls) (sch.take m))).GetInputSignatureHash H idx flag = .ok d := by
    intro m idx d e
    have e6 := (fin' m idx).symm.trans e
    rcases hg : (now tx (Mix.run g (Mix.start pool (adds es) calls) (sch.take m))).GetInputSignatureHash H idx flag with d' | e' | _
    · rw [hg] at e6; injection e6 with e6; injection e6 with e6; rw [e6]
    · rw [hg] at e6; injection e6 with e6; cases e6
    · rw [hg] at e6; cases e6
  refine ⟨l, n0, ?_, hN0, ?_, ?_⟩
  · cases method with
    | false => exact ret_finds k1
    | true => cases k1 with | assign k1 => exact ret_finds k1
  · intro p hp'
    obtain ⟨j, inp, e1, e2, e3, m, hm, e4⟩ := k2 p hp'
    refine ⟨inp, by rw [e2, Nat.zero_add]; exact e1, e3, m, hm, ?_⟩
    exact fin m _ _ e4
  · intro j inp hj hpay
    rcases k3 j inp hj hpay with ⟨d, hd⟩ | ⟨m, r', hm, e4, e5⟩
    · left; rw [Nat.zero_add] at hd; exact ⟨d, hd⟩
    · right
      rw [Nat.zero_add] at e4
      have e6 := (fin' m _).symm.trans e4
      rcases hg : (now tx (Mix.run g (Mix.start pool (adds es) calls) (sch.take m))).GetInputSignatureHash H (UInt32.ofNat j) flag with d | e | _
      · rw [hg] at e6; injection e6 with e6; exact absurd e6.symm (e5 d)
      · exact ⟨m, e, hm, hg⟩
      · rw [hg] at e6; cases e6

end

/-! ## When nothing is lost -/

theorem added_all {α : Type} {jobs : List (Nat × α)} {f : Nat} {ts : List Nat} {xs : List α} (nd : ts.Nodup) (had : AddedBy jobs f ts xs) (all : ∀ t x, jobs[t]? = some (f, x) → t ∈ ts) :
    xs.Perm (jobs.filterMap fun j => if j.1 = f then some j.2 else none) := by
  obtain ⟨pick, hpick⟩ : ∃ pick : Nat → Option α, pick = fun t => (jobs[t]?).bind fun j => if j.1 = f then some j.2 else none := ⟨_, rfl⟩
  have e1 : xs = ts.filterMap pick := by
    clear nd all
    induction had with
    | nil => rfl
    | @cons t x ts xs h _ ih =>
      have : pick t = some x := by rw [hpick]; simp [h]
      rw [List.filterMap_cons, this, ih]
  have e2 : (jobs.filterMap fun j => if j.1 = f then some j.2 else none) = (List.range jobs.length).filterMap pick := by
    rw [hpick]
    clear * -
    induction jobs using List.reverseRecOn with
    | nil => rfl
    | append_singleton jobs j ih =>
      rw [List.filterMap_append, List.length_append, List.length_singleton, List.range_succ, List.filterMap_append, ih]
      congr 1
      · apply List.filterMap_congr
        intro t ht
        rw [List.getElem?_append_left (by simpa using ht)]
      · simp only [List.filterMap_cons, List.filterMap_nil, List.getElem?_concat_length, Option.bind_some]
  have e3 : (List.range jobs.length).filterMap pick = ((List.range jobs.length).filter fun t => (pick t).isSome).filterMap pick := by
    rw [List.filterMap_filter]
    apply List.filterMap_congr
    intro t _
    rcases pick t with _ | x <;> simp
  rw [e1, e2, e3]
  refine List.Perm.filterMap pick ((List.perm_ext_iff_of_nodup nd (List.nodup_range.filter _)).2 fun t => ?_)
  rw [List.mem_filter, List.mem_range]
  constructor
  · intro ht
    obtain ⟨x, hx⟩ := addedBy_mem had t ht
    refine ⟨(List.getElem?_eq_some_iff.1 hx).1, ?_⟩
    rw [hpick]; simp [hx]
  · rintro ⟨hlt, hs⟩
    rw [hpick] at hs
    simp only [List.getElem?_eq_getElem hlt, Option.bind_some] at hs
    split_ifs at hs with c
    · exact all t jobs[t].2 (by rw [List.getElem?_eq_getElem hlt, ← c])
    · cases hs

theorem adds_ins (es : List Elem) : ((adds es).filterMap fun j => if j.1 = 0 then some j.2 else none) = (ins es).map .inl := by
  induction es with
  | nil => rfl
  | cons e es ih =>
    unfold adds ins at ih ⊢
    cases e <;> simp [ih, List.filterMap_cons]

theorem adds_outs (es : List Elem) : ((adds es).filterMap fun j => if j.1 = 1 then some j.2 else none) = (outs es).map .inr := by
  induction es with
  | nil => rfl
  | cons e es ih =>
    unfold adds outs at ih ⊢
    cases e <;> simp [ih, List.filterMap_cons]

theorem two_kept {γ δ : Type} {l : List γ} {p : γ → Option δ} {t u : Nat} {x y : γ} {a b : δ} (ht : l[t]? = some x) (hx : p x = some a) (hu : l[u]? = some y) (hy : p y = some b) (h1 : (l.filterMap p).length ≤ 1) : t = u := by
  have lt : ∀ {t u : Nat} {x y : γ} {a b : δ}, l[t]? = some x → p x = some a → l[u]? = some y → p y = some b → ¬ t < u := by
    intro t u x y a b ht hx hu hy hlt
    have e : l = l.take (t + 1) ++ l.drop (t + 1) := (List.take_append_drop _ _).symm
    rw [e, List.filterMap_append, List.length_append] at h1
    have m1 : a ∈ (l.take (t + 1)).filterMap p := List.mem_filterMap.2 ⟨x, List.mem_of_getElem? (i := t) (by rw [List.getElem?_take_of_lt (by omega)]; exact ht), hx⟩
    have m2 : b ∈ (l.drop (t + 1)).filterMap p := List.mem_filterMap.2 ⟨y, List.mem_of_getElem? (i := u - (t + 1)) (by rw [List.getElem?_drop, show t + 1 + (u - (t + 1)) = u by omega]; exact hu), hy⟩
    have := List.length_pos_of_mem m1
    have := List.length_pos_of_mem m2
    omega
  have := lt ht hx hu hy
  have := lt hu hy ht hx
  omega

/-- C123: while replacements do not overlap (a lock is held around every addition and every call of the transaction's own `Sign` or `SignAuto`), nothing is lost: when all have returned, the transaction has the inputs and outputs it had,
in place, and then all those added, in some order. -/
theorem C123_kept (g : Nat → Nat) {tx : Transaction} {pool : Nat → Pool Elem} (hp : HoldsTx pool tx) (es : List Elem) (calls : List (Prog Elem Got)) {sch : List Nat}
    (ho : NoOverlap g (Mix.start pool (adds es) calls) sch) (hd : ∀ t, t < es.length → Added (Mix.run g (Mix.start pool (adds es) calls) sch) t) :
    ∃ is os, (now tx (Mix.run g (Mix.start pool (adds es) calls) sch)).Inputs = tx.Inputs ++ is ∧ is.Perm (ins es) ∧
      (now tx (Mix.run g (Mix.start pool (adds es) calls) sch)).Outputs = tx.Outputs ++ os ∧ os.Perm (outs es) := by
  have key : ∀ f, ∃ xs, (Mix.run g (Mix.start pool (adds es) calls) sch).val f = txVal tx f ++ xs ∧ xs.Perm ((adds es).filterMap fun j => if j.1 = f then some j.2 else none) := by
    intro f
    obtain ⟨ts, ⟨nd, xs, had, e⟩, hmem⟩ := C122_values g pool (fun f => (hp f).1) (adds es) calls sch ho sch.length f
    rw [List.take_length, (hp f).2] at e
    refine ⟨xs, e, added_all nd had fun t x ht => (hmem t).2 ⟨?_, x, ht⟩⟩
    rw [List.take_length]
    exact hd t (by simpa [adds] using (List.getElem?_eq_some_iff.1 ht).1)
  obtain ⟨xs, e0, p0⟩ := key 0
  obtain ⟨ys, e1, p1⟩ := key 1
  rw [adds_ins] at p0
  rw [adds_outs] at p1
  refine ⟨ins xs, outs ys, ?_, ?_, ?_, ?_⟩
  · show ins _ = _
    rw [e0, ins, List.filterMap_append]
    exact congrArg (· ++ ins xs) (ins_map _)
  · have := p0.filterMap Sum.getLeft?
    rwa [show ((ins es).map (Sum.inl : Input → Elem)).filterMap Sum.getLeft? = ins es from ins_map _] at this
  · show outs _ = _
    rw [e1, outs, List.filterMap_append]
    exact congrArg (· ++ outs ys) (outs_map _)
  · have := p1.filterMap Sum.getRight?
    rwa [show ((outs es).map (Sum.inr : Output → Elem)).filterMap Sum.getRight? = outs es from outs_map _] at this

/-- C123: through the signer's own methods (and with calls that only look) nothing is lost either, whatever the schedule, if at most one goroutine adds inputs and at most one adds outputs. -/
theorem C123_through_signer (H : HashFns) (g : Nat → Nat) {tx : Transaction} {pool : Nat → Pool Elem} (hp : HoldsTx pool tx) (es : List Elem) (hi : (ins es).length ≤ 1) (h1 : (outs es).length ≤ 1) (cs : List OnTx)
    (hcs : ∀ c ∈ cs, ¬ c.Assigns) (sch : List Nat) (hd : ∀ t, t < es.length → Added (Mix.run g (Mix.start pool (adds es) (cs.map (OnTx.prog H tx))) sch) t) :
    let s := Mix.run g (Mix.start pool (adds es) (cs.map (OnTx.prog H tx))) sch
    (now tx s).Inputs = tx.Inputs ++ ins es ∧ (now tx s).Outputs = tx.Outputs ++ outs es := by
  have ho : NoOverlap g (Mix.start pool (adds es) (cs.map (OnTx.prog H tx))) sch := by
    refine C122_one_writer g pool _ _ ?_ sch
    have nocall : ∀ f t, Replaces (adds es) (cs.map (OnTx.prog H tx)) f t → ∃ x, (adds es)[t]? = some (f, x) := by
      rintro f t (h | ⟨i, p, -, hp, ha⟩)
      · exact h
      · rw [List.getElem?_map, Option.map_eq_some_iff] at hp
        obtain ⟨c, hc, rfl⟩ := hp
        exact absurd ha (C122_only_looks H tx c (hcs c (List.mem_of_getElem? hc)) f)
    intro f t u ht hu
    obtain ⟨x, hx⟩ := nocall f t ht
    obtain ⟨y, hy⟩ := nocall f u hu
    rcases (adds_get hx).2 with ⟨rfl, i, rfl⟩ | ⟨rfl, o, rfl⟩
    · refine two_kept (p := fun j : Nat × Elem => if j.1 = 0 then some j.2 else none) hx (by simp; rfl) hy (by simp; rfl) ?_
      rw [adds_ins, List.length_map]; exact hi
    · refine two_kept (p := fun j : Nat × Elem => if j.1 = 1 then some j.2 else none) hx (by simp; rfl) hy (by simp; rfl) ?_
      rw [adds_outs, List.length_map]; exact h1
  obtain ⟨is, os, e1, p1, e2, p2⟩ := C123_kept g hp es _ ho hd
  have small : ∀ {γ : Type} {a b : List γ}, b.length ≤ 1 → a.Perm b → a = b := by
    intro γ a b hb hp
    match b, hb with
    | [], _ => exact hp.eq_nil
    | [x], _ => exact List.perm_singleton.1 hp
  exact ⟨by rw [e1, small hi p1], by rw [e2, small h1 p2]⟩

end Verif.Props
