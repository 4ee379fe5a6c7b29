import Verif.Lemmas.Objects4
/-!
# `SignAuto`, new and parsed transactions, and whole histories
-/
namespace Verif.Obj
open Verif

theorem set_same {α : Type} {l : List α} {t : Nat} {x : α} (h : l[t]? = some x) : l.set t x = l := by
  apply List.ext_getElem?
  intro n
  by_cases e : t = n
  · subst e
    rw [List.getElem?_set_self (List.getElem?_eq_some_iff.1 h).1, h]
  · rw [List.getElem?_set_ne e]

theorem signAutoStep_sim (H : HashFns) {σ : Store} {v : Values} (s : Sim σ v) {t : Nat} {T : Transaction} (hT : v.txs[t]? = some T) {o : TxObj} (ho : σ.txs[t]? = some o)
    {sg : Nat} {a b c : InternalSigner} (ha : σ.signers[sg]? = some a) (hab : norm a = norm b) (hc : c.pubKey = b.pubKey) {i : Nat} {p : Ref}
    (hp : (σ.refs o.Inputs)[i]? = some p) :
    (signAutoStep H sg c t i p σ = .panic ∧ b.signAutoStep H i T = .panic) ∨
    ∃ σ' T', signAutoStep H sg c t i p σ = .ok σ' ∧ b.signAutoStep H i T = .ok T' ∧ Sim σ' { v with txs := v.txs.set t T' } ∧ σ'.arrays = σ.arrays ∧ σ'.txs = σ.txs ∧
      ∃ a', σ'.signers[sg]? = some a' ∧ norm a' = norm b := by
  obtain ⟨o', ho', w1, w2, hv, hl, hi, hos⟩ := s.reads t T hT
  rw [ho] at ho'; cases ho'
  have hset : v.txs.set t T = v.txs := by
    apply List.ext_getElem?
    intro n
    by_cases e : t = n
    · subst e
      rw [List.getElem?_set_self (List.getElem?_eq_some_iff.1 hT).1, hT]
    · rw [List.getElem?_set_ne e]
  rcases forall₂_getElem? hi i with ⟨e1, -⟩ | ⟨p', j, e1, e2, hpj⟩
  · rw [e1] at hp; cases hp
  rw [e1] at hp; cases hp
  obtain ⟨k, q, rfl, hq, -, -, -, hps, -, -⟩ := id hpj
  unfold signAutoStep InternalSigner.signAutoStep
  rw [e2]
  simp only [Store.input, index_some hq, Res.ok_bind]
  have hscr : scriptOf σ q.PreviousTxScript = Res.ok j.PreviousTxScript := by
    cases hqs : q.PreviousTxScript with
    | none =>
      rw [hqs] at hps
      have : j.PreviousTxScript = none := hps
      rw [this]; rfl
    | some k2 =>
      rw [hqs] at hps
      obtain ⟨b2, hb2⟩ := Option.isSome_iff_exists.1 hps.1
      have h2 : σ.scripts[k2]? = some b2 := by rw [← hb2]; exact hps.2
      rw [hb2]
      simp only [scriptOf, Store.script, index_some h2, Res.ok_bind]
      rfl
  rw [hscr, Res.ok_bind]
  cases hg : GetPublicKeyHash j.PreviousTxScript with
  | panic => left; exact ⟨rfl, rfl⟩
  | _ =>
    dsimp only
    rw [hc]
    split
    · rcases internalSign_sim H s hT (UInt32.ofNat i) ha hab with ⟨h1, h2⟩ | ⟨σ', e, h1, h2, h3⟩ | ⟨σ', T', h1, h2, h3⟩
      · left; rw [h1, h2]; exact ⟨rfl, rfl⟩
      · right
        obtain ⟨k1, k2, k3⟩ := internalSign_signer H ha hab h1
        rw [h1, h2]
        exact ⟨σ', T, rfl, rfl, by rw [hset]; exact h3, k2, k3, k1⟩
      · right
        obtain ⟨k1, k2, k3⟩ := internalSign_signer H ha hab h1
        rw [h1, h2]
        exact ⟨σ', T', rfl, rfl, h3, k2, k3, k1⟩
    · right
      exact ⟨σ, T, rfl, rfl, by rw [hset]; exact s, rfl, rfl, a, ha, hab⟩

theorem signAutoLoop_sim (H : HashFns) {t : Nat} {sg : Nat} {b c : InternalSigner} (hc : c.pubKey = b.pubKey) {o : TxObj} : ∀ (ps : List Ref) (i : Nat) {σ : Store} {v : Values}
    {T : Transaction} {a : InternalSigner}, Sim σ v → v.txs[t]? = some T → σ.txs[t]? = some o → (σ.refs o.Inputs).drop i = ps → σ.signers[sg]? = some a → norm a = norm b →
    (signAutoLoop H sg c t i ps σ = .panic ∧ b.signAutoLoop H ps.length i T = .panic) ∨
    ∃ σ' T', signAutoLoop H sg c t i ps σ = .ok σ' ∧ b.signAutoLoop H ps.length i T = .ok T' ∧ Sim σ' { v with txs := v.txs.set t T' } ∧ σ'.txs = σ.txs
  | [], i, σ, v, T, a, s, hT, ho, hd, ha, hab => by
    right
    refine ⟨σ, T, rfl, rfl, ?_, rfl⟩
    have hset : v.txs.set t T = v.txs := by
      apply List.ext_getElem?
      intro n
      by_cases e : t = n
      · subst e
        rw [List.getElem?_set_self (List.getElem?_eq_some_iff.1 hT).1, hT]
      · rw [List.getElem?_set_ne e]
    rw [hset]; exact s
  | p :: ps, i, σ, v, T, a, s, hT, ho, hd, ha, hab => by
    have hp : (σ.refs o.Inputs)[i]? = some p := by
      have := congrArg (·[0]?) hd
      simpa using this
    have hd' : (σ.refs o.Inputs).drop (i + 1) = ps := by
      rw [← List.drop_drop, hd]; rfl
    rcases signAutoStep_sim H s hT ho ha hab hc hp with ⟨h1, h2⟩ | ⟨σ', T', h1, h2, h3, h4, h5, a', h6, h7⟩
    · left
      simp only [signAutoLoop, InternalSigner.signAutoLoop, List.length_cons, h1, h2]
      exact ⟨rfl, rfl⟩
    · simp only [signAutoLoop, InternalSigner.signAutoLoop, List.length_cons, h1, h2, Res.ok_bind]
      have hT' : ({ v with txs := v.txs.set t T' } : Values).txs[t]? = some T' := List.getElem?_set_self (List.getElem?_eq_some_iff.1 hT).1
      have hr : σ'.refs o.Inputs = σ.refs o.Inputs := by unfold Store.refs; rw [h4]
      rcases signAutoLoop_sim H hc ps (i + 1) h3 hT' (by rw [h5]; exact ho) (by rw [hr]; exact hd') h6 h7 with h | ⟨σ2, T2, k1, k2, k3, k4⟩
      · left; exact h
      · right
        refine ⟨σ2, T2, k1, k2, ?_, by rw [k4, h5]⟩
        simpa [List.set_set] using k3

theorem signAuto_sim (H : HashFns) {σ : Store} {v : Values} (s : Sim σ v) {t : Nat} {T : Transaction} (hT : v.txs[t]? = some T) {sg : Nat}
    {a b : InternalSigner} (ha : σ.signers[sg]? = some a) (hab : norm a = norm b) :
    (InternalSignAuto H σ sg t = .panic ∧ b.SignAuto H T = .panic) ∨
    ∃ σ' T', InternalSignAuto H σ sg t = .ok (σ', .ok (some t)) ∧ b.SignAuto H T = .ok T' ∧ Sim σ' { v with txs := v.txs.set t T' } := by
  obtain ⟨o, ho, w1, w2, hv, hl, hi, hos⟩ := s.reads t T hT
  obtain ⟨e1, e2, e3⟩ := norm_eq hab
  have s1 := default_sim s ha
  have hn : (defaultFlag σ sg a).signers[sg]? = some (norm a) := List.getElem?_set_self (List.getElem?_eq_some_iff.1 ha).1
  unfold InternalSignAuto InternalSigner.SignAuto
  simp only [index_some ha, Res.ok_bind]
  have ho1 : (defaultFlag σ sg a).txs[t]? = some o := ho
  have htx : (defaultFlag σ sg a).tx (some t) = .ok o := index_some ho1
  rw [htx, Res.ok_bind]
  have hlen : T.Inputs.length = ((defaultFlag σ sg a).refs o.Inputs).length := hi.length_eq.symm
  rw [hlen]
  rcases signAutoLoop_sim H (b := b) (c := a) e2 ((defaultFlag σ sg a).refs o.Inputs) 0 s1 hT ho1 (by simp) hn (by rw [norm_norm, hab]) with ⟨h1, h2⟩ | ⟨σ', T', h1, h2, h3, h4⟩
  · left; rw [h1, h2]; exact ⟨rfl, rfl⟩
  · right; rw [h1, h2]; exact ⟨σ', T', rfl, rfl, h3⟩

/-! ## New transactions -/

theorem refs_nil (σ : Store) : σ.refs ⟨0, 0, 0⟩ = [] := by simp [Store.refs]

theorem getElem?_snoc {α : Type} {l : List α} {x y : α} {k : Nat} (h : (l ++ [x])[k]? = some y) : l[k]? = some y ∨ (k = l.length ∧ y = x) := by
  by_cases hlt : k < l.length
  · rw [List.getElem?_append_left hlt] at h; exact Or.inl h
  · right
    rw [List.getElem?_append_right (by omega)] at h
    obtain ⟨h1, h2⟩ := List.getElem?_eq_some_iff.1 h
    have hz : k - l.length = 0 := by simpa using h1
    refine ⟨by omega, ?_⟩
    simp only [hz, List.getElem_cons_zero] at h2
    exact h2.symm

theorem newTx_sim {σ : Store} {v : Values} (s : Sim σ v) (ver lock : UInt32) :
    Sim (σ.newTx ⟨ver, ⟨0, 0, 0⟩, ⟨0, 0, 0⟩, lock⟩).1 { v with txs := v.txs ++ [⟨ver, [], [], lock⟩] } := by
  have wf0 : ∀ (b : Bool) σ', ((⟨ver, ⟨0, 0, 0⟩, ⟨0, 0, 0⟩, lock⟩ : TxObj).slice b).WF σ' := by
    intro b σ'; cases b <;> exact ⟨le_refl _, Or.inl rfl⟩
  have cap0 : ∀ (b : Bool), ((⟨ver, ⟨0, 0, 0⟩, ⟨0, 0, 0⟩, lock⟩ : TxObj).slice b).cap = 0 := by
    intro b; cases b <;> rfl
  refine ⟨by simp [Store.newTx, s.len], ?_, ⟨?_, ?_, ?_⟩, s.signers⟩
  · intro k T hT
    rcases getElem?_snoc hT with h | ⟨h1, rfl⟩
    · obtain ⟨o, ho, w1, w2, r⟩ := s.reads k T h
      exact ⟨o, by simp only [Store.newTx]; rw [List.getElem?_append_left (List.getElem?_eq_some_iff.1 ho).1]; exact ho, w1, w2, r⟩
    · have hk : k = σ.txs.length := by rw [s.len]; exact h1
      refine ⟨⟨ver, ⟨0, 0, 0⟩, ⟨0, 0, 0⟩, lock⟩, by simp only [Store.newTx]; rw [hk, List.getElem?_concat_length], wf0 false _, wf0 true _, rfl, rfl, ?_, ?_⟩
      · rw [refs_nil]; exact .nil
      · rw [refs_nil]; exact .nil
  · intro k u b hu
    rcases getElem?_snoc hu with h | ⟨-, rfl⟩
    · exact s.sep.wf k u b h
    · exact wf0 b _
  · intro k u b k' u' b' hu hu' c c' e
    rcases getElem?_snoc hu with h | ⟨-, rfl⟩
    · rcases getElem?_snoc hu' with h' | ⟨-, rfl⟩
      · exact s.sep.arrays k u b k' u' b' h h' c c' e
      · rw [cap0] at c'; omega
    · rw [cap0] at c; omega
  · intro k u j k' u' j' m hu hu' hj hj'
    rcases getElem?_snoc hu with h | ⟨-, rfl⟩
    · rcases getElem?_snoc hu' with h' | ⟨-, rfl⟩
      · exact s.sep.inputs k u j k' u' j' m h h' hj hj'
      · rw [show (σ.newTx ⟨ver, ⟨0, 0, 0⟩, ⟨0, 0, 0⟩, lock⟩).1.refs ⟨0, 0, 0⟩ = [] from refs_nil _] at hj'
        simp at hj'
    · rw [show (σ.newTx ⟨ver, ⟨0, 0, 0⟩, ⟨0, 0, 0⟩, lock⟩).1.refs ⟨0, 0, 0⟩ = [] from refs_nil _] at hj
      simp at hj

/-- Adding an input just made. -/
theorem addNewInput_sim (g : Nat → Nat) {σ : Store} {v : Values} (s : Sim σ v) {t : Nat} {T : Transaction} (hT : v.txs[t]? = some T) (i : Input) :
    ∃ σ', AddInput g (mkInput σ i).1 t (mkInput σ i).2 = .ok σ' ∧ Sim σ' { v with txs := v.txs.set t (T.AddInput i) } := by
  have e := ext_mkInput σ i
  have s1 := s.ext e
  have hsee := sees_mkInput σ i
  have hr := mkInput_ref σ i
  rw [hr] at hsee ⊢
  refine addInput_sim g s1 hT hsee ?_
  intro k o j hk hj
  rw [e.txs] at hk
  obtain ⟨T', -, R⟩ := s.obj hk
  obtain ⟨o', ho', w1, -⟩ := id R
  rw [hk] at ho'; cases ho'
  rw [e.refs] at hj
  have := s.input_lt hk hj
  omega

theorem addNewOutput_sim (g : Nat → Nat) {σ : Store} {v : Values} (s : Sim σ v) {t : Nat} {T : Transaction} (hT : v.txs[t]? = some T) (o : Output) :
    ∃ σ', AddOutput g (mkOutput σ o).1 t (mkOutput σ o).2 = .ok σ' ∧ Sim σ' { v with txs := v.txs.set t (T.AddOutput o) } :=
  addOutput_sim g (s.ext (ext_mkOutput σ o)) hT (sees_mkOutput σ o)

theorem addInputs_sim (g : Nat → Nat) {t : Nat} : ∀ (is : List Input) {σ : Store} {v : Values} {T : Transaction}, Sim σ v → v.txs[t]? = some T →
    ∃ σ', addInputs g t is σ = .ok σ' ∧ Sim σ' { v with txs := v.txs.set t { T with Inputs := T.Inputs ++ is } }
  | [], σ, v, T, s, hT => by
    refine ⟨σ, rfl, ?_⟩
    rw [List.append_nil, set_same hT]; exact s
  | i :: is, σ, v, T, s, hT => by
    obtain ⟨σ1, h1, s1⟩ := addNewInput_sim g s hT i
    have hT1 : ({ v with txs := v.txs.set t (T.AddInput i) } : Values).txs[t]? = some (T.AddInput i) := List.getElem?_set_self (List.getElem?_eq_some_iff.1 hT).1
    obtain ⟨σ2, h2, s2⟩ := addInputs_sim g is s1 hT1
    refine ⟨σ2, ?_, ?_⟩
    · simp only [addInputs, h1, Res.ok_bind]; exact h2
    · simpa [List.set_set, Transaction.AddInput] using s2

theorem addOutputs_sim (g : Nat → Nat) {t : Nat} : ∀ (os : List Output) {σ : Store} {v : Values} {T : Transaction}, Sim σ v → v.txs[t]? = some T →
    ∃ σ', addOutputs g t os σ = .ok σ' ∧ Sim σ' { v with txs := v.txs.set t { T with Outputs := T.Outputs ++ os } }
  | [], σ, v, T, s, hT => by
    refine ⟨σ, rfl, ?_⟩
    rw [List.append_nil, set_same hT]; exact s
  | i :: is, σ, v, T, s, hT => by
    obtain ⟨σ1, h1, s1⟩ := addNewOutput_sim g s hT i
    have hT1 : ({ v with txs := v.txs.set t (T.AddOutput i) } : Values).txs[t]? = some (T.AddOutput i) := List.getElem?_set_self (List.getElem?_eq_some_iff.1 hT).1
    obtain ⟨σ2, h2, s2⟩ := addOutputs_sim g is s1 hT1
    refine ⟨σ2, ?_, ?_⟩
    · simp only [addOutputs, h1, Res.ok_bind]; exact h2
    · simpa [List.set_set, Transaction.AddOutput] using s2

/-- A parsed transaction as objects. -/
theorem build_sim (g : Nat → Nat) {σ : Store} {v : Values} (s : Sim σ v) (T : Transaction) :
    ∃ σ₁ σ₂, addInputs g σ.txs.length T.Inputs (σ.newTx ⟨T.Version, ⟨0, 0, 0⟩, ⟨0, 0, 0⟩, T.Locktime⟩).1 = .ok σ₁ ∧
      addOutputs g σ.txs.length T.Outputs σ₁ = .ok σ₂ ∧ Sim σ₂ { v with txs := v.txs ++ [T] } := by
  have s0 := newTx_sim s T.Version T.Locktime
  have e : ({ v with txs := v.txs ++ [⟨T.Version, [], [], T.Locktime⟩] } : Values).txs[σ.txs.length]? = some ⟨T.Version, [], [], T.Locktime⟩ := by
    rw [s.len]; exact List.getElem?_concat_length
  obtain ⟨σ1, h1, s1⟩ := addInputs_sim g T.Inputs s0 e
  have e1 : (v.txs ++ [(⟨T.Version, [], [], T.Locktime⟩ : Transaction)]).length = v.txs.length + 1 := by simp
  have h2 := addOutputs_sim g (t := σ.txs.length) T.Outputs s1 (List.getElem?_set_self (by rw [s.len, e1]; omega))
  obtain ⟨σ2, h2, s2⟩ := h2
  refine ⟨σ1, σ2, h1, h2, ?_⟩
  rw [s.len] at s2
  simpa [List.set_set] using s2

theorem setTx_same {σ : Store} {t : Nat} {o : TxObj} (h : σ.txs[t]? = some o) : σ.setTx t o = σ := by
  unfold Store.setTx; rw [set_same h]

/-- Errors keep the state. -/
theorem at_eq (v : Values) {t : Nat} {T : Transaction} (hT : v.txs[t]? = some T) (f : Transaction → Res Transaction) :
    v.at t f = match f T with
      | .ok T' => .ok { v with txs := v.txs.set t T' }
      | .err _ => .ok v
      | .panic => .panic := by
  unfold Values.at
  rw [index_some hT]
  simp only [Res.ok_bind]
  cases f T with
  | ok T' => rfl
  | err e => simp only [orKeep, Res.ok_bind, set_same hT]; rfl
  | panic => rfl

theorem call_sim (H : HashFns) (g : Nat → Nat) {σ : Store} {v : Values} (s : Sim σ v) (c : Call) :
    (c.run H g σ = .panic ∧ c.runValues H v = .panic) ∨ ∃ σ' v', c.run H g σ = .ok σ' ∧ c.runValues H v = .ok v' ∧ Sim σ' v' := by
  have look : ∀ t : Nat, (σ.txs[t]? = none ∧ v.txs[t]? = none) ∨ ∃ o T, σ.txs[t]? = some o ∧ v.txs[t]? = some T := by
    intro t
    cases ho : σ.txs[t]? with
    | none =>
      left
      refine ⟨rfl, ?_⟩
      rw [List.getElem?_eq_none_iff] at ho ⊢
      rw [← s.len]; exact ho
    | some o =>
      right
      obtain ⟨T, hT, -⟩ := s.obj ho
      exact ⟨o, T, rfl, hT⟩
  cases c with
  | new =>
    right
    exact ⟨_, _, rfl, rfl, newTx_sim s 1 0⟩
  | parse b =>
    simp only [Call.run, Call.runValues, NewFromBytes]
    cases hp : Transaction.NewFromBytes b with
    | panic => left; exact ⟨rfl, rfl⟩
    | err e => right; exact ⟨σ, v, rfl, rfl, s⟩
    | ok T =>
      right
      obtain ⟨σ1, σ2, h1, h2, h3⟩ := build_sim g s T
      refine ⟨σ2, _, ?_, rfl, h3⟩
      simp only [Res.ok_bind, h1, h2]
      rfl
  | «from» t txID vout scr sat =>
    simp only [Call.run, Call.runValues]
    rcases look t with ⟨h1, h2⟩ | ⟨o, T, h1, h2⟩
    · left; simp only [Store.tx, index_none h1, Values.at, index_none h2]; exact ⟨rfl, rfl⟩
    · rw [at_eq v h2]
      simp only [Store.tx, index_some h1, Res.ok_bind, From, Transaction.From]
      cases hs : Script.NewFromHexString scr with
      | panic => left; exact ⟨rfl, rfl⟩
      | err e => right; exact ⟨σ, v, rfl, rfl, s⟩
      | ok pts =>
        right
        simp only [Res.ok_bind]
        obtain ⟨σ', h, s'⟩ := addNewInput_sim g s h2 { PreviousTxID := txID, PreviousTxOutIndex := vout, PreviousTxSatoshis := sat, PreviousTxScript := some pts, UnlockingScript := none, SequenceNumber := 0xffffffff }
        rw [h]
        exact ⟨σ', _, rfl, rfl, s'⟩
  | payTo t addr sat =>
    simp only [Call.run, Call.runValues]
    rcases look t with ⟨h1, h2⟩ | ⟨o, T, h1, h2⟩
    · left; simp only [Store.tx, index_none h1, Values.at, index_none h2]; exact ⟨rfl, rfl⟩
    · rw [at_eq v h2]
      simp only [Store.tx, index_some h1, Res.ok_bind, PayTo, Transaction.PayTo]
      cases hs : Output.NewP2PKHFromAddress addr sat with
      | panic => left; exact ⟨rfl, rfl⟩
      | err e => right; exact ⟨σ, v, rfl, rfl, s⟩
      | ok x =>
        right
        simp only [Res.ok_bind]
        obtain ⟨σ', h, s'⟩ := addNewOutput_sim g s h2 x
        rw [h]
        exact ⟨σ', _, rfl, rfl, s'⟩
  | addInput t i =>
    simp only [Call.run, Call.runValues]
    rcases look t with ⟨h1, h2⟩ | ⟨o, T, h1, h2⟩
    · left
      have h1' : (mkInput σ i).1.txs[t]? = none := by rw [(ext_mkInput σ i).txs]; exact h1
      simp only [AddInput, Store.tx, index_none h1', Values.at, index_none h2]; exact ⟨rfl, rfl⟩
    · right
      rw [at_eq v h2]
      obtain ⟨σ', h, s'⟩ := addNewInput_sim g s h2 i
      exact ⟨σ', _, h, rfl, s'⟩
  | addOutput t i =>
    simp only [Call.run, Call.runValues]
    rcases look t with ⟨h1, h2⟩ | ⟨o, T, h1, h2⟩
    · left
      have h1' : (mkOutput σ i).1.txs[t]? = none := by rw [(ext_mkOutput σ i).txs]; exact h1
      simp only [AddOutput, Store.tx, index_none h1', Values.at, index_none h2]; exact ⟨rfl, rfl⟩
    · right
      rw [at_eq v h2]
      obtain ⟨σ', h, s'⟩ := addNewOutput_sim g s h2 i
      exact ⟨σ', _, h, rfl, s'⟩
  | apply t idx b =>
    simp only [Call.run, Call.runValues]
    rcases look t with ⟨h1, h2⟩ | ⟨o, T, h1, h2⟩
    · left
      have h1' : (σ.newScript b).1.txs[t]? = none := h1
      simp only [ApplyUnlockingScript, Store.tx, index_none h1', Values.at, index_none h2]; exact ⟨rfl, rfl⟩
    · rw [at_eq v h2]
      rcases apply_sim (s.ext (ext_newScript σ b)) h2 idx (sees_newScript σ b) with ⟨k1, k2⟩ | ⟨σ', T', k1, k2, k3⟩
      · left; rw [k1, k2]; exact ⟨rfl, rfl⟩
      · right; rw [k1, k2]; exact ⟨σ', _, rfl, rfl, k3⟩
  | signer x =>
    right
    refine ⟨_, _, rfl, rfl, s.len, s.reads, ⟨s.sep.wf, s.sep.arrays, s.sep.inputs⟩, ?_⟩
    simp only [List.map_append, s.signers]
  | sign t idx sg =>
    simp only [Call.run, Call.runValues, Sign, internal]
    rcases s.signer sg with ⟨g1, g2⟩ | ⟨a, b, g1, g2, g3⟩
    · left
      simp only [InternalSign, index_none g1, index_none g2]; exact ⟨rfl, rfl⟩
    rw [index_some g2, Res.ok_bind]
    rcases look t with ⟨h1, h2⟩ | ⟨o, T, h1, h2⟩
    · left
      have h1' : (defaultFlag σ sg a).txs[t]? = none := h1
      simp only [InternalSign, index_some g1, Res.ok_bind, GetInputSignatureHash, Store.tx, index_none h1', Values.at, index_none h2]; exact ⟨rfl, rfl⟩
    · rw [at_eq v h2]
      rcases internalSign_sim H s h2 idx g1 g3 with ⟨k1, k2⟩ | ⟨σ', e, k1, k2, k3⟩ | ⟨σ', T', k1, k2, k3⟩
      · left; rw [k1, k2]; exact ⟨rfl, rfl⟩
      · right; rw [k1, k2]; exact ⟨σ', v, rfl, rfl, k3⟩
      · right
        obtain ⟨-, -, k6⟩ := internalSign_signer H g1 g3 k1
        have h1' : σ'.txs[t]? = some o := by rw [k6]; exact h1
        rw [k1, k2]
        refine ⟨σ', _, ?_, rfl, k3⟩
        simp only [Res.ok_bind, assign, Store.tx, index_some h1', setTx_same h1']
        rfl
  | signAuto t sg =>
    simp only [Call.run, Call.runValues, SignAuto, internal]
    rcases s.signer sg with ⟨g1, g2⟩ | ⟨a, b, g1, g2, g3⟩
    · left
      simp only [InternalSignAuto, index_none g1, index_none g2]; exact ⟨rfl, rfl⟩
    rw [index_some g2, Res.ok_bind]
    rcases look t with ⟨h1, h2⟩ | ⟨o, T, h1, h2⟩
    · left
      have h1' : (defaultFlag σ sg a).txs[t]? = none := h1
      simp only [InternalSignAuto, index_some g1, Res.ok_bind, Store.tx, index_none h1', Values.at, index_none h2]; exact ⟨rfl, rfl⟩
    · rw [at_eq v h2]
      rcases signAuto_sim H s h2 g1 g3 with ⟨k1, k2⟩ | ⟨σ', T', k1, k2, k3⟩
      · left; rw [k1, k2]; exact ⟨rfl, rfl⟩
      · right
        have hlt : t < v.txs.length := (List.getElem?_eq_some_iff.1 h2).1
        obtain ⟨o', ho', -⟩ := k3.reads t T' (List.getElem?_set_self hlt)
        rw [k1, k2]
        refine ⟨σ', _, ?_, rfl, k3⟩
        simp only [Res.ok_bind, assign, Store.tx, index_some ho', setTx_same ho']
        rfl

theorem calls_sim (H : HashFns) (g : Nat → Nat) : ∀ (cs : List Call) {σ : Store} {v : Values}, Sim σ v →
    (runCalls H g cs σ = .panic ∧ runValues H cs v = .panic) ∨ ∃ σ' v', runCalls H g cs σ = .ok σ' ∧ runValues H cs v = .ok v' ∧ Sim σ' v'
  | [], σ, v, s => Or.inr ⟨σ, v, rfl, rfl, s⟩
  | c :: cs, σ, v, s => by
    simp only [runCalls, runValues]
    rcases call_sim H g s c with ⟨h1, h2⟩ | ⟨σ', v', h1, h2, h3⟩
    · left; rw [h1, h2]; exact ⟨rfl, rfl⟩
    · rw [h1, h2, Res.ok_bind, Res.ok_bind]
      exact calls_sim H g cs h3

theorem empty_sim : Sim Store.empty ⟨[], []⟩ :=
  ⟨rfl, fun k T h => by simp at h, ⟨fun k t b h => by simp [Store.empty] at h, fun k u b k' u' b' h => by simp [Store.empty] at h, fun k u j k' u' j' m h => by simp [Store.empty] at h⟩, rfl⟩

end Verif.Obj

namespace Verif.Obj

theorem seesScript_unique {σ : Store} {p : Ref} {a b : Option Bytes} (h : seesScript σ p a) (k : seesScript σ p b) : a = b := by
  cases p with
  | none => have h' : a = none := h; have k' : b = none := k; rw [h', k']
  | some n => rw [← h.2, ← k.2]

theorem seesInput_unique {σ : Store} {p : Ref} {a b : Input} (h : seesInput σ p a) (k : seesInput σ p b) : a = b := by
  obtain ⟨n, o, rfl, ho, h1, h2, h3, h4, h5, h6⟩ := h
  obtain ⟨n', o', e, ho', k1, k2, k3, k4, k5, k6⟩ := k
  cases e
  rw [ho] at ho'; cases ho'
  obtain ⟨a1, a2, a3, a4, a5, a6⟩ := a
  obtain ⟨b1, b2, b3, b4, b5, b6⟩ := b
  simp only at h1 h2 h3 h4 h5 h6 k1 k2 k3 k4 k5 k6
  rw [← h1, ← h2, ← h3, ← h6, ← k1, ← k2, ← k3, ← k6, seesScript_unique h4 k4, seesScript_unique h5 k5]

theorem seesOutput_unique {σ : Store} {p : Ref} {a b : Output} (h : seesOutput σ p a) (k : seesOutput σ p b) : a = b := by
  obtain ⟨n, o, rfl, ho, h1, h2⟩ := h
  obtain ⟨n', o', e, ho', k1, k2⟩ := k
  cases e
  rw [ho] at ho'; cases ho'
  obtain ⟨a1, a2⟩ := a
  obtain ⟨b1, b2⟩ := b
  simp only at h1 h2 k1 k2
  have := seesScript_unique h2 k2
  cases this
  rw [← h1, ← k1]

theorem forall₂_unique {α β : Type} {R : α → β → Prop} (hR : ∀ a b c, R a b → R a c → b = c) {l : List α} {m n : List β} (h : List.Forall₂ R l m)
    (k : List.Forall₂ R l n) : m = n := by
  induction h generalizing n with
  | nil => cases k; rfl
  | cons h _ ih =>
    cases k with
    | cons k1 k2 => rw [hR _ _ _ h k1, ih k2]

/-- An object shows one value. -/
theorem reads_unique {σ : Store} {t : Nat} {T U : Transaction} (h : Reads σ t T) (k : Reads σ t U) : T = U := by
  obtain ⟨o, ho, w1, w2, hv, hl, hi, hos⟩ := h
  obtain ⟨o', ho', -, -, kv, kl, ki, kos⟩ := k
  rw [ho] at ho'; cases ho'
  obtain ⟨a1, a2, a3, a4⟩ := T
  obtain ⟨b1, b2, b3, b4⟩ := U
  simp only at hv hl hi hos kv kl ki kos
  have e1 : a2 = b2 := forall₂_unique (R := seesInput σ) (fun _ _ _ h k => seesInput_unique h k) hi ki
  have e2 : a3 = b3 := forall₂_unique (R := seesOutput σ) (fun _ _ _ h k => seesOutput_unique h k) hos kos
  rw [← hv, ← hl, ← kv, ← kl, e1, e2]

end Verif.Obj
