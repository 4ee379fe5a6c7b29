import Verif.Props.PushData
/-!
# C11: when an append fails
-/
namespace Verif.Props
open Verif Verif.Spec

/-- Specification: the calls that must fail: an item longer than the longest push (2^32 - 1 bytes), or text that is not hex. -/
def AppendOp.Refused : AppendOp → Prop
  | .pushData d | .pushString d => 2 ^ 32 - 1 < d.length
  | .pushHex str => ¬ IsHex str ∨ 2 ^ 32 - 1 < str.length / 2
  | .pushArray ds | .pushStrings ds => ∃ d ∈ ds, 2 ^ 32 - 1 < d.length
  | .opCode _ => False

instance (a : AppendOp) : Decidable a.Refused := by cases a <;> unfold AppendOp.Refused <;> infer_instance

/-- C11 (c): an append fails exactly when an item is longer than 2^32 - 1 bytes or the text is not hex. -/
theorem C11_append_fails_iff (s : Script) (a : AppendOp) : (a.call s).isErr ↔ a.Refused := by
  have arr : ∀ ds : List Bytes, (AppendPushDataArray s ds).isErr ↔ ∃ d ∈ ds, 2 ^ 32 - 1 < d.length := by
    intro ds
    by_cases hl : ∀ d ∈ ds, d.length ≤ 2 ^ 32 - 1
    · have he := (encodeParts_ok_iff ds _).mpr ⟨fun d hd => hl d hd, rfl⟩
      simp only [AppendPushDataArray, he, Res.ok_bind, Res.pure_eq]
      refine ⟨fun h => absurd h (by simp), ?_⟩
      rintro ⟨d, hd, h⟩
      have := hl d hd
      omega
    · obtain ⟨e, he⟩ := encodeParts_err (ps := ds) hl
      simp only [AppendPushDataArray, he, Res.err_bind, Res.isErr]
      refine ⟨fun _ => ?_, fun _ => trivial⟩
      by_contra hc
      exact hl fun d hd => by
        by_contra h
        exact hc ⟨d, hd, by omega⟩
  have one : ∀ d : Bytes, (AppendPushData s d).isErr ↔ 2 ^ 32 - 1 < d.length := by
    intro d
    have := arr [d]
    simpa [AppendPushDataArray, AppendPushData] using this
  cases a with
  | pushData d => exact one d
  | pushString d => exact one d
  | pushHex str =>
    simp only [AppendOp.call, AppendPushDataHexString, AppendOp.Refused]
    by_cases hh : IsHex str
    · rw [hexDecodeRes_isHex hh, Res.ok_bind, one]
      have : (hexDecodeIgnore str).length = str.length / 2 := by
        have := hexDecodeIgnore_length hh
        omega
      rw [this]
      simp [hh]
    · obtain ⟨e, he⟩ := hexDecodeRes_not_isHex hh
      simp [he, hh, Res.isErr]
  | pushArray ds => exact arr ds
  | pushStrings ds =>
    simp only [AppendOp.call, AppendPushDataStrings, List.map_id]
    exact arr ds
  | opCode o => simp [AppendOp.call, AppendOp.Refused, Res.isErr]

/-- non-vacuity: hex that is refused, hex that is not, an opcode -/
example : AppendOp.Refused (.pushHex b!"0g") ∧ ¬ AppendOp.Refused (.pushHex b!"0a") ∧ ¬ AppendOp.Refused (.opCode 0x6a) := by decide +kernel

end Verif.Props
