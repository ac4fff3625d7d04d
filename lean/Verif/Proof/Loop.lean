import Verif.Spec.Instr
import Verif.Proof.Stage

/-! Helper lemmas for the record loop, `from_reader` and `get_global_arg`. -/

namespace Verif
open Spec

theorem argsBeforeFrom_append (xs : List Instruction) (i : Instruction) :
    argsBeforeFrom (xs ++ [i]) =
      if xs.any isFrom then argsBeforeFrom xs
      else match i with
        | .arg a => argsBeforeFrom xs ++ [a]
        | _ => argsBeforeFrom xs := by
  induction xs with
  | nil => cases i <;> rfl
  | cons x xs ih =>
    cases x <;> simp [argsBeforeFrom, isFrom, ih]
    all_goals (split <;> first | rfl | (cases i <;> rfl))

/-- invariant of the record loop -/
structure LoopInv (st : LoopState) : Prop where
  args : st.globalArgs = argsBeforeFrom st.instructions
  found : st.fromFound = st.instructions.any isFrom
  index : st.fromIndex = st.instructions.countP isFrom
  froms : ∀ pre f post, st.instructions = pre ++ .from f :: post → f.index = pre.countP isFrom

theorem concat_split {α : Type} {xs pre post : List α} {x y : α} (h : xs ++ [x] = pre ++ y :: post) :
    (post = [] ∧ pre = xs ∧ y = x) ∨ ∃ post', post = post' ++ [x] ∧ xs = pre ++ y :: post' := by
  rcases List.eq_nil_or_concat post with rfl | ⟨post', c, rfl⟩
  · left
    have e1 := List.append_inj_left' h rfl
    have e2 := List.append_inj_right' h rfl
    simp at e2
    exact ⟨rfl, e1.symm, e2.symm⟩
  · right
    rw [List.concat_eq_append, ← List.cons_append, ← List.append_assoc] at h
    have e1 := List.append_inj_left' h rfl
    have e2 := List.append_inj_right' h rfl
    simp at e2
    subst e2
    exact ⟨post', by simp, e1⟩

theorem LoopInv.step {st : LoopState} (h : LoopInv st) (i : Instruction) :
    LoopInv (loopStep st i) := by
  obtain ⟨h1, h2, h3, h4⟩ := h
  have hfroms : ∀ (j : Instruction), (∀ f, j = .from f → f.index = st.instructions.countP isFrom) →
      ∀ pre f post, st.instructions ++ [j] = pre ++ .from f :: post →
        f.index = pre.countP isFrom := by
    intro j hj pre f post hs
    rcases concat_split hs with ⟨-, rfl, hy⟩ | ⟨post', -, hy⟩
    · exact hj f hy.symm
    · exact h4 pre f post' hy
  cases i with
  | «from» f =>
    refine ⟨?_, ?_, ?_, hfroms _ ?_⟩
    · simp only [loopStep]
      rw [argsBeforeFrom_append, h1]
      split <;> rfl
    · simp [loopStep, isFrom]
    · simp [loopStep, h3, isFrom]
    · intro g hg
      cases hg
      exact h3
  | arg a =>
    refine ⟨?_, ?_, ?_, hfroms _ (by simp)⟩
    · simp only [loopStep]
      rw [argsBeforeFrom_append, h2, h1]
    · simp [loopStep, isFrom, h2]
    · simp [loopStep, h3, isFrom]
  | _ =>
    refine ⟨?_, ?_, ?_, hfroms _ (by simp)⟩
    · simp only [loopStep]
      rw [argsBeforeFrom_append, h1]
      split <;> rfl
    · simp [loopStep, isFrom, h2]
    · simp [loopStep, h3, isFrom]

theorem recordLoop_inv (unq : Unquote) (ts : List Tok) (st st' : LoopState) (h : LoopInv st)
    (hr : recordLoop unq ts st = .ok st') : LoopInv st' := by
  induction ts generalizing st with
  | nil => simp [recordLoop] at hr; subst hr; exact h
  | cons t ts ih =>
    unfold recordLoop at hr
    split at hr
    · exact ih st h hr
    · exact ih st h hr
    · cases hi : instructionOf unq t with
      | error e => rw [hi] at hr; cases hr
      | ok ins =>
        rw [hi] at hr
        exact ih _ (h.step ins) hr

theorem parse_ok_inv {unq : Unquote} {s : Str} {d : Dockerfile} (h : Dockerfile.parse unq s = .ok d) :
    d.content = s ∧ ∃ st, LoopInv st ∧ d.global_args = st.globalArgs ∧
      d.instructions = st.instructions := by
  unfold Dockerfile.parse at h
  split at h
  · cases h
  · cases h
  · rename_i doc ts heq
    cases hr : recordLoop unq doc.children
        { instructions := [], globalArgs := [], fromFound := false, fromIndex := 0 } with
    | error e => rw [hr] at h; cases h
    | ok st =>
      rw [hr] at h
      cases h
      refine ⟨rfl, st, ?_, rfl, rfl⟩
      refine recordLoop_inv unq _ _ st ⟨rfl, rfl, rfl, ?_⟩ hr
      intro pre f post h
      simp at h

/-! ### readers -/

theorem readToEnd_steady (es : List ReadEvent) (acc : List UInt8) (h : Steady es) :
    readToEnd es acc = some (acc ++ delivered es) := by
  induction es generalizing acc with
  | nil => simp [readToEnd, delivered]
  | cons e es ih =>
    have hes : Steady es := fun x hx => h x (by simp [hx])
    have he := h e (by simp)
    cases e with
    | failed => simp at he
    | interrupted => simp [readToEnd, delivered, ih _ hes]
    | data bs =>
      cases bs with
      | nil => simp at he
      | cons b bs => simp [readToEnd, delivered, ih _ hes]

theorem readToEnd_failed (es rest : List ReadEvent) (acc : List UInt8) (h : Steady es) :
    readToEnd (es ++ .failed :: rest) acc = none := by
  induction es generalizing acc with
  | nil => rfl
  | cons e es ih =>
    have hes : Steady es := fun x hx => h x (by simp [hx])
    have he := h e (by simp)
    cases e with
    | failed => simp at he
    | interrupted => simp [readToEnd, ih _ hes]
    | data bs =>
      cases bs with
      | nil => simp at he
      | cons b bs => simp [readToEnd, ih _ hes]

theorem utf8Encode_inj {a b : List Char} (h : a.utf8Encode = b.utf8Encode) : a = b := by
  have : String.ofList a = String.ofList b := by
    rw [← String.toByteArray_inj]
    simpa using h
  exact String.ofList_injective this

theorem decodeUtf8_iff (bs : List UInt8) (s : Str) : decodeUtf8 bs = some s ↔ Encodes s bs := by
  unfold decodeUtf8 Encodes
  have hbs : ∀ l : List UInt8, (⟨l.toArray⟩ : ByteArray) = l.toByteArray := by
    intro l
    apply ByteArray.ext
    simp
  have henc : ∀ l : Str, l.utf8Encode = (l.flatMap String.utf8EncodeChar).toByteArray := fun _ => rfl
  rw [hbs]
  unfold String.fromUTF8?
  constructor
  · intro h
    split at h
    · rename_i hv
      simp at h
      have hl : (String.fromUTF8 bs.toByteArray hv).toByteArray = bs.toByteArray := rfl
      have h2 : String.ofList s = String.fromUTF8 bs.toByteArray hv := by
        rw [← h]; simp
      rw [← h2] at hl
      rw [String.toByteArray_ofList, henc] at hl
      have := congrArg (fun b => b.data.toList) hl
      simpa using this.symm
    · cases h
  · rintro rfl
    have hv : (s.flatMap String.utf8EncodeChar).toByteArray.IsValidUTF8 := ⟨s, rfl⟩
    rw [dif_pos hv]
    have h2 : String.fromUTF8 (s.flatMap String.utf8EncodeChar).toByteArray hv = String.ofList s := by
      rw [← String.toByteArray_inj]
      simp [henc, String.fromUTF8]
    rw [h2]
    simp

end Verif
