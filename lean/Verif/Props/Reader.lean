import Verif.Props.Loop

/-! # C31: readers that report the end of the file, and all other readers -/

namespace Verif
open Spec

theorem readToEnd_end (es rest : List ReadEvent) (acc : List UInt8) (h : Steady es) :
    readToEnd (es ++ .data [] :: rest) acc = some (acc ++ delivered es) := by
  induction es generalizing acc with
  | nil => simp [readToEnd, delivered]
  | cons e es ih =>
    have hes : Steady es := fun x hx => h x (by simp [hx])
    have he := h e (by simp)
    cases e with
    | failed => simp at he
    | interrupted => simp [readToEnd, delivered, ih _ hes]
    | data bs =>
      cases bs with
      | nil => simp at he
      | cons b bs => simp [readToEnd, delivered, ih _ hes]

/-- C31 (end of file): a read that delivers nothing is the end of the file.  What came before it is parsed, and what the reader would
do behind it, be it an error, makes no difference. -/
theorem C31_end_of_file (unq : Unquote) (es rest : List ReadEvent) (s : Str) (hs : Steady es) (he : Encodes s (delivered es)) :
    Dockerfile.fromReader unq (es ++ .data [] :: rest) = Dockerfile.parse unq s := by
  unfold Dockerfile.fromReader
  simp only [readToEnd_end es rest [] hs, List.nil_append, (decodeUtf8_iff _ s).mpr he]

/-- C31 (end of file): … and bytes before it that encode no text are a read error. -/
theorem C31_end_of_file_invalid (unq : Unquote) (es rest : List ReadEvent) (hs : Steady es)
    (he : ∀ s, ¬ Encodes s (delivered es)) : Dockerfile.fromReader unq (es ++ .data [] :: rest) = .error (.err .readError) := by
  rw [← C31_invalid_utf8 unq es hs he]
  unfold Dockerfile.fromReader
  rw [readToEnd_end es rest [] hs, readToEnd_steady es [] hs]

/-- `FROM é`, the end of the file, and an error that is never seen -/
example : Dockerfile.fromReader Enquote.unquote
    ([.data [70, 82, 79, 77, 32, 0xc3], .interrupted, .data [0xa9]] ++ .data [] :: [.failed]) =
      Dockerfile.parse Enquote.unquote c!"FROM é" :=
  C31_end_of_file _ _ _ _ (by intro e he; simp at he; rcases he with rfl | rfl | rfl <;> simp) (by show _ = _; decide +kernel)

/-- half of a character before the end of the file -/
example : Dockerfile.fromReader Enquote.unquote ([.data [32, 0xc3]] ++ .data [] :: [.data [0xa9]]) = .error (.err .readError) :=
  C31_end_of_file_invalid _ _ _ (by intro e he; simp at he; subst he; simp) fun s hs => by
    have := (decodeUtf8_iff _ s).mpr hs
    have e : decodeUtf8 (delivered [.data [32, 0xc3]]) = none := by decide +kernel
    rw [e] at this
    cases this

/-- C31 (all readers): these theorems and `C31_from_reader`, `C31_invalid_utf8` and `C31_io_error` speak about every reader. -/
theorem C31_readers (es : List ReadEvent) :
    Steady es ∨ ∃ es' e rest, es = es' ++ e :: rest ∧ Steady es' ∧ (e = .failed ∨ e = .data []) := by
  induction es with
  | nil => exact .inl fun e he => by cases he
  | cons e es ih =>
    by_cases h : e = .failed ∨ e = .data []
    · exact .inr ⟨[], e, es, rfl, fun e he => (by cases he), h⟩
    · have hst : ∀ {l}, Steady l → Steady (e :: l) := fun hl x hx => by
        rcases List.mem_cons.1 hx with rfl | hx
        · exact ⟨fun g => h (.inl g), fun g => h (.inr g)⟩
        · exact hl x hx
      rcases ih with ih | ⟨es', e', rest, rfl, h1, h2⟩
      · exact .inl (hst ih)
      · exact .inr ⟨e :: es', e', rest, rfl, hst h1, h2⟩

/-- both cases occur -/
example : Steady [.interrupted, .data [70]] ∧ ¬ Steady [.data [70], .data [], .failed] := by
  unfold Steady
  decide

end Verif
