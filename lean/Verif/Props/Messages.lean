import Verif.Props.Debug

/-! # C67: the texts of all errors -/

namespace Verif
open Spec

/-- C67 (each text): what `to_string` shows for every error that is not a report of pest.  An error of enquote is shown by the name of
its variant. -/
theorem C67_each (plain : Char → Bool) :
    (∀ m, FullError.display plain (.generic m) = some (c!"unable to parse Dockerfile: " ++ m)) ∧
    FullError.display plain .unknown = some c!"unable to parse Dockerfile" ∧
    (∀ t, FullError.display plain (.read t) = some (c!"could not read Dockerfile: " ++ t)) ∧
    (∀ f t, FullError.display plain (.conversion f t) =
      some (c!"could not convert instruction '" ++ debugStr plain f ++ c!"' to desired type '" ++ t ++ c!"'")) ∧
    FullError.display plain (.unescape .notEnoughChars) = some c!"error unescaping string: NotEnoughChars" ∧
    FullError.display plain (.unescape .unrecognizedQuotes) = some c!"error unescaping string: UnrecognizedQuotes" ∧
    FullError.display plain (.unescape .unmatchedQuotes) = some c!"error unescaping string: UnmatchedQuotes" ∧
    FullError.display plain (.unescape .illegalChar) = some c!"error unescaping string: IllegalChar" ∧
    FullError.display plain (.unescape .unexpectedEof) = some c!"error unescaping string: UnexpectedEOF" ∧
    FullError.display plain (.unescape .unrecognizedEscape) = some c!"error unescaping string: UnrecognizedEscape" ∧
    FullError.display plain (.unescape .invalidUnicode) = some c!"error unescaping string: InvalidUnicode" :=
  ⟨fun _ => rfl, rfl, fun _ => rfl, fun _ _ => rfl, rfl, rfl, rfl, rfl, rfl, rfl, rfl⟩

/-- C67 (each text): an error has a text, unless it is a report of pest whose own text cannot be made. -/
theorem C67_total (plain : Char → Bool) (e : FullError) (h : e.display plain = none) : ∃ p, e = .parse p ∧ p.display = none := by
  cases e with
  | parse p => exact ⟨p, rfl, by simpa [FullError.display] using h⟩
  | _ => cases h

/-- an error of parsing with such a text -/
example : Dockerfile.parse Enquote.unquote c!"LABEL a=\"\\q\"" = .error (.err (.unescape .unrecognizedEscape)) := by
  decide +kernel

end Verif
